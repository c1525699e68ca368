import Verif.Model.Knn
/-!
# Search by vector, brute-force search and paging by distance

Model of `SearchByVector`, `SearchByVectorDistance` (pkg/hnsw/search.go) and `flatSearch` (pkg/hnsw/flat_search.go).
-/
namespace Fave
namespace Graph
variable {V D : Type} [Dist D]
open Queue

/-- one candidate of the filter — pkg/hnsw/flat_search.go:25-58.  `q` is already normalised. -/
def flatStep (g : Graph V D) (q : V) (limit : Int) (res : Array (Item D)) (c : Nat) : Except Err (Array (Item D)) :=
  match g.get c with
  | none => .ok res
  | some _ =>
    if g.tomb c then .ok res
    else
      match g.distNodeVec c q with
      | none => .error .error
      | some d =>
        if (res.size : Int) < limit then .ok (insert lessMax res ⟨c, d⟩)
        else
          match top res with
          | none => .error .panic
          | some t =>
            if Dist.lt d t.dist then
              match pop lessMax res with
              | none => .error .panic
              | some (_, res) => .ok (insert lessMax res ⟨c, d⟩)
            else .ok res

/-- the loop over the filter — flat_search.go:24-58; `ids` is what the iterator of the allow list delivers. -/
def flatLoop (g : Graph V D) (q : V) (limit : Int) : Array (Item D) → List Nat → Except Err (Array (Item D))
  | res, [] => .ok res
  | res, c :: ids =>
    match flatStep g q limit res c with
    | .error e => .error e
    | .ok res => flatLoop g q limit res ids

/-- `flatSearch` — flat_search.go:19-74; `make` with a negative capacity panics (priorityqueue/queue.go:35). -/
def flatSearch (g : Graph V D) (q : V) (limit : Int) (ids : List Nat) : Except Err (List (Item D)) :=
  if limit < 0 then .error .panic
  else
    match flatLoop g q limit #[] ids with
    | .error e => .error e
    | .ok res => .ok (drain lessMax res).reverse

/-- the search settings — pkg/hnsw/index.go:84-90, 246-252 -/
structure EfConfig where
  ef : Int
  efMin : Int
  efMax : Int
  efFactor : Int
  flatCutoff : Int
  forbidFlat : Bool

/-- a 64-bit `int` after an operation that may overflow, as in search.go:57 -/
def wrap64 (n : Int) : Int := (n + 2 ^ 63) % 2 ^ 64 - 2 ^ 63

/-- `autoEfFromK` — search.go:52-68 -/
def autoEfFromK (c : EfConfig) (k : Int) : Int :=
  let ef := wrap64 (k * c.efFactor)
  let ef := if ef > c.efMax then c.efMax else if ef < c.efMin then c.efMin else ef
  if k > ef then k else ef

/-- `searchTimeEF` — search.go:36-50 -/
def searchTimeEF (c : EfConfig) (k : Int) : Int :=
  if c.ef < 1 then autoEfFromK c k
  else if c.ef < k then k else c.ef

/-- `SearchByVector` — search.go:70-85; `allow` is the list of the ids the filter's iterator delivers. -/
def searchByVector (g : Graph V D) (c : EfConfig) (isEmpty : Bool) (sched : Scheds D) (vector : V) (k : Int)
    (allow : Option (List Nat)) : Except Err (List (Item D)) :=
  let q := g.norm vector
  match allow with
  | some ids =>
    if !c.forbidFlat && decide ((ids.length : Int) < c.flatCutoff) then g.flatSearch q k ids
    else g.knnSearch isEmpty sched q k (searchTimeEF c k) (some (fun id => ids.contains id))
  | none => g.knnSearch isEmpty sched q k (searchTimeEF c k) none

end Graph

namespace Paging
variable {D : Type}

/-- the slice `ids[offsetCap:totalLimitCap]` — search.go:115-119, 584-606 -/
def page (res : List (Item D)) (offset total : Nat) : List (Item D) :=
  (res.take (min total res.length)).drop (min offset res.length)

/-- one round (`recursiveSearch`) — search.go:107-142.  `search k` is `SearchByVector` with limit `k`; `within d` is
`d <= targetDistance`, `near d` is `floatcomp.InDelta(d, targetDistance, 1e-6)`.  Returns the new hits and `shouldContinue`. -/
def round (search : Nat → Except Err (List (Item D))) (within near : D → Bool) (offset total : Nat) :
    Except Err (List (Item D) × Bool) :=
  match search total with
  | .error e => .error e
  | .ok res =>
    let p := page res offset total
    match p.getLast? with
    | none => .ok ([], false)
    | some last => .ok (p.takeWhile (fun x => within x.dist || near x.dist), within last.dist)

/-- the loop — search.go:144-163; `offset`, `limit` and `total` are the fields of `searchByDistParams` (608-615), `maxLimit`
is `maximumSearchLimit` (a negative value means unlimited).  `fuel` bounds the rounds. -/
def loop (search : Nat → Except Err (List (Item D))) (within near : D → Bool) (maxLimit : Int) :
    Nat → Nat → Nat → List (Item D) → Except Err (List (Item D))
  | 0, _, _, _ => .error .fuel
  | fuel + 1, limit, total, acc =>
    let offset := total
    let limit := limit * 10
    let total := offset + limit
    if 0 ≤ maxLimit ∧ (total : Int) > maxLimit then .ok acc
    else
      match round search within near offset total with
      | .error e => .error e
      | .ok (hits, true) => loop search within near maxLimit fuel limit total (acc ++ hits)
      | .ok (hits, false) => .ok (acc ++ hits)

/-- `SearchByVectorDistance` — search.go:96-162, 548-582 -/
def searchByDistance (search : Nat → Except Err (List (Item D))) (within near : D → Bool) (maxLimit : Int) (fuel : Nat) :
    Except Err (List (Item D)) :=
  match round search within near 0 100 with
  | .error e => .error e
  | .ok (hits, true) => loop search within near maxLimit fuel 100 100 hits
  | .ok (hits, false) => .ok hits

end Paging
end Fave
