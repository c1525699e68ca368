import Verif.Lemmas.PoolsRun
/-!
# C58 — pooled objects belong to one user at a time
-/
namespace Fave.C58
open Pools
variable {A : Type}

/-- Any number of threads, each with any sequence of searches and linkings (with any widths, marks, changes of queues, and errors at any of
the places where the functions return early), in any interleaving, whatever `sync.Pool` delivers or drops: no variable without object is
ever used, and every object that a thread is still going to use
* is exactly as if the thread had made it for itself: only the thread's own marks, only the thread's own elements,
* is in no pool,
* is used by no other thread, and through no other variable. -/
theorem pooled_objects_are_private (z : Sizes) (calls : Nat → List (Call A)) (hf : ∀ t, ∀ c ∈ calls t, c.Fits z.list) (evs : List Ev)
    (s : St A) (hs : s = evs.foldl (step z) (init z (fun t => opsOf (calls t)))) :
    s.crashed = false ∧
    ∀ (t : Nat) (sl : Slot), needs sl (s.thread t).rest = true →
      ∃ a, (s.thread t).slot sl = some a ∧ AsOwn (s.thread t).past sl (s.heap a) ∧ ¬ s.pooled a ∧
        ∀ (t' : Nat) (sl' : Slot), needs sl' (s.thread t').rest = true → (s.thread t').slot sl' = some a → t' = t ∧ sl' = sl := by
  subst hs
  obtain ⟨live, hI⟩ := inv_run z evs (inv_init z hf)
  refine ⟨hI.ok, ?_⟩
  intro t sl hn
  have hl := needs_live (hI.chk t) hn
  obtain ⟨a, h1, _, h3, h4⟩ := hI.held t sl hl
  exact ⟨a, h1, h3.asOwn, h4, fun t' sl' hn' h' => hI.only t' sl' t sl a (needs_live (hI.chk t') hn') hl h' h1⟩

/-- What is in a pool is there once, in one pool, and of the kind the pool is for; visited lists there mark nothing and are at least as
long as new ones, slices there are empty. -/
theorem pools_are_in_order (z : Sizes) (calls : Nat → List (Call A)) (hf : ∀ t, ∀ c ∈ calls t, c.Fits z.list) (evs : List Ev)
    (s : St A) (hs : s = evs.foldl (step z) (init z (fun t => opsOf (calls t)))) :
    s.vpool.Nodup ∧ (∀ k, (s.qpool k).Nodup) ∧
    (∀ a ∈ s.vpool, ∃ l, s.heap a = .vis l ∧ z.list ≤ l.len ∧ ∀ id, l.visited id = false) ∧
    (∀ k, ∀ a ∈ s.qpool k, ∃ items cap, s.heap a = .q k items cap ∧ (k = .slice → items = [])) := by
  subst hs
  obtain ⟨live, hI⟩ := inv_run z evs (inv_init z hf)
  refine ⟨hI.vnd, hI.qnd, ?_, fun k a ha => (hI.q k a ha).2⟩
  intro a ha
  obtain ⟨_, l, h1, _, h2, h3⟩ := hI.v a ha
  exact ⟨l, h1, h2, h3⟩

/-- A queue just taken is empty, of the right kind, and has at least the capacity asked for, whichever object the pool delivered. -/
theorem queue_taken_is_empty (z : Sizes) (calls : Nat → List (Call A)) (hf : ∀ t, ∀ c ∈ calls t, c.Fits z.list) (evs : List Ev)
    (s : St A) (hs : s = evs.foldl (step z) (init z (fun t => opsOf (calls t)))) (t pick : Nat) (k : QKind) (hk : k ≠ .slice) (capacity : Int)
    (rest : List (Op A)) (hr : (s.thread t).rest = .get k capacity :: rest) :
    ∃ a cap, ((step z s (.run t pick)).thread t).slot (.q k) = some a ∧ (step z s (.run t pick)).heap a = .q k [] cap ∧ capacity ≤ cap := by
  subst hs
  obtain ⟨live, hI⟩ := inv_run z evs (inv_init z hf)
  generalize evs.foldl (step z) (init z (fun t => opsOf (calls t))) = s at *
  have hready : ∀ items cap, ∃ cap', ready capacity (.q k items cap : Obj A) = .q k [] cap' ∧ capacity ≤ cap' := by
    intro items cap
    cases k with
    | slice => exact absurd rfl hk
    | _ => simp only [ready]; split <;> exact ⟨_, rfl, by omega⟩
  simp only [step, hr, act]
  cases hg : (s.qpool k)[pick]? with
  | none =>
    obtain ⟨cap', h1, h2⟩ := hready [] z.cap
    exact ⟨s.next, cap', by simp [St.alloc, St.assign], by simp [St.alloc, St.assign, h1], h2⟩
  | some a =>
    obtain ⟨_, items, cap, h3, _⟩ := hI.q k a (List.mem_of_getElem? hg)
    obtain ⟨cap', h1, h2⟩ := hready items cap
    exact ⟨a, cap', by simp [St.assign, St.store], by simp [St.assign, St.store, h3, h1], h2⟩

/-! Non-vacuity: two searches with two layers each and a linking with heuristic, interleaved, one of them failing; objects are handed from
one thread to the other. -/
def add (n : Nat) : Edit Nat := ⟨fun l => n :: l, 0⟩
def pop : Edit Nat := ⟨fun l => l.tail, 0⟩
def lay (n : Nat) (fail : Bool) : Layer Nat := ⟨2, [n], [.cand (add n), .res (add n)], fail, [.cand pop, .visit 5, .visit 9, .cand (add 5), .res (add 5)]⟩
def calls : Nat → List (Call Nat)
  | 0 => [.search [⟨lay 1 false, [pop], false⟩] ⟨lay 2 false, [pop, pop], false⟩]
  | 1 => [.link ⟨lay 3 false, some ⟨7, [(pop, add 3), (pop, add 5)], false, [(pop, some (add 3)), (pop, none)], false, [add 3]⟩, [pop], [⟨4, [], false, [], true, []⟩]⟩]
  | 2 => [.search [⟨lay 1 true, [], false⟩] ⟨lay 2 false, [], false⟩, .best [⟨lay 4 false, [pop], false⟩]]
  | _ => []
def z : Sizes := ⟨20, 3⟩
/-- the threads take turns of three steps; then some object is dropped, and so on -/
def evs : List Ev := (List.range 20).flatMap (fun _ => [.run 0 0, .run 0 0, .run 0 0, .run 1 0, .run 1 0, .run 1 0, .run 2 0, .run 2 0, .run 2 0]) ++ [.drop .res 0] ++
  (List.range 3).flatMap (fun _ => [.run 1 0, .run 2 0])

theorem fits : ∀ t, ∀ c ∈ calls t, c.Fits z.list := by
  intro t c hc
  match t with
  | 0 => simp only [calls, List.mem_singleton] at hc; subst hc; simp [Call.Fits, Layer.Fits, lay, z]
  | 1 => simp only [calls, List.mem_singleton] at hc; subst hc; simp [Call.Fits, Layer.Fits, lay, z]
  | 2 =>
    simp only [calls, List.mem_cons, List.not_mem_nil, or_false] at hc
    rcases hc with rfl | rfl <;> simp [Call.Fits, Layer.Fits, lay, z]
  | n + 3 => simp [calls] at hc

/-- in the middle: all three threads hold results, all different; thread 0 works with the visited list thread 1 has returned -/
example : let s := (evs.take 60).foldl (step z) (init z (fun t => opsOf (calls t)))
    (needs (.q .res) (s.thread 0).rest && needs (.q .res) (s.thread 1).rest && needs (.q .res) (s.thread 2).rest) = true ∧
    (s.thread 0).slot .vis = (s.thread 1).slot .vis ∧ needs .vis (s.thread 0).rest = true ∧ needs .vis (s.thread 1).rest = false ∧
    ownMarks (s.thread 0).past = [2] ∧ ownMarks (s.thread 1).past = [9, 5, 3] := by decide +kernel

/-- at the end: what was returned is in the pools; what the failed calls held (and the dropped queue) is not -/
example : let s := evs.foldl (step z) (init z (fun t => opsOf (calls t)))
    (s.thread 0).rest.length = 0 ∧ s.vpool = [0, 9, 3] ∧ s.qpool .res = [5, 11] ∧ s.qpool .heur = [] ∧ s.next = 14 := by decide +kernel

/-- a queue is about to be taken -/
example : let s := (evs.take 47).foldl (step z) (init z (fun t => opsOf (calls t)))
    ((match (s.thread 0).rest with | .get .res 2 :: _ => true | _ => false) && (s.qpool .res).length == 1) = true := by decide +kernel

end Fave.C58
