import Verif.Lemmas.Flush
import Verif.Lemmas.Knn
/-!
# The index does not panic
-/
namespace Fave.Search
variable {V D : Type} [Dist D]
open Queue

/-- all numbers in the two queues are below `n` -/
structure Below (n : Nat) (st : St D) : Prop where
  cands : ∀ x ∈ st.cands.toList, x.id < n
  results : ∀ x ∈ st.results.toList, x.id < n

theorem consider_below {env : SEnv V D} {ef : Int} {level : Nat} {st : St D} {nd : Item D} (h : Below env.cacheSize st) (hn : nd.id < env.cacheSize) :
    ∃ st', consider env ef level st nd = .ok st' ∧ Below env.cacheSize st' := by
  obtain ⟨st', he⟩ := consider_total (ef := ef) (level := level) h.cands hn
  refine ⟨st', he, ?_⟩
  have hc : ∀ x ∈ (insert lessMin st.cands nd).toList, x.id < env.cacheSize := by
    intro x hx
    rcases List.mem_cons.mp ((insert_perm lessMin st.cands nd).mem_iff.mp hx) with rfl | hx
    · exact hn
    · exact h.cands x hx
  have hr : ∀ x ∈ (insert lessMax st.results nd).toList, x.id < env.cacheSize := by
    intro x hx
    rcases List.mem_cons.mp ((insert_perm lessMax st.results nd).mem_iff.mp hx) with rfl | hx
    · exact hn
    · exact h.results x hx
  cases consider_ok he with
  | skip _ _ e => subst e; exact h
  | cand _ e => subst e; exact ⟨hc, h.results⟩
  | both _ _ _ _ r _ hrr _ e =>
    subst e
    refine ⟨hc, ?_⟩
    rcases hrr with ⟨rfl, _⟩ | ⟨⟨x, hp⟩, _⟩
    · exact hr
    · intro y hy
      exact hr y ((pop_perm lessMax hp).mem_iff.mpr (List.mem_cons_of_mem _ hy))

theorem considerAll_below {env : SEnv V D} {ef : Int} {level : Nat} {nds : List (Item D)} {st : St D} (h : Below env.cacheSize st)
    (hn : ∀ x ∈ nds, x.id < env.cacheSize) : ∃ st', considerAll env ef level st nds = .ok st' ∧ Below env.cacheSize st' := by
  induction nds generalizing st with
  | nil => exact ⟨st, rfl, h⟩
  | cons nd nds ih =>
    obtain ⟨st1, h1, h2⟩ := consider_below (ef := ef) (level := level) h (hn nd (by simp))
    unfold considerAll
    rw [h1]
    exact ih h2 (fun x hx => hn x (by simp [hx]))

theorem loop_below {env : SEnv V D} (hg : GraphOk env) {sched : Sched D} {ef : Int} {level : Nat} (fuel : Nat) {st : St D} (h : Below env.cacheSize st) :
    loop env sched ef level fuel st ≠ .error .panic ∧ ∀ st', loop env sched ef level fuel st = .ok st' → Below env.cacheSize st' := by
  induction fuel generalizing st with
  | zero => unfold loop; exact ⟨by simp, fun _ h => by cases h⟩
  | succ fuel ih =>
    unfold loop
    split
    · exact ⟨by simp, fun _ e => by cases e; exact h⟩
    · rename_i c q hp
      have h1 : Below env.cacheSize { st with cands := q } :=
        ⟨fun x hx => h.cands x ((pop_perm lessMin hp).mem_iff.mpr (List.mem_cons_of_mem _ hx)), h.results⟩
      split
      · exact ⟨by simp, fun _ e => by cases e; exact h⟩
      · simp only
        split
        · exact ih h1
        · rename_i v hv
          split
          · exact ih h1
          · obtain ⟨links, hl⟩ := hg.conns c.id v hv level (by omega)
            rw [hl]
            simp only
            have hn : ∀ x ∈ sched.order st.n (distances env (markNew st.visited links).2), x.id < env.cacheSize := by
              intro x hx
              obtain ⟨_, hd⟩ := mem_distances ((sched.perm _ _).mem_iff.mp hx)
              unfold distToNode at hd
              split at hd
              · cases hd
              · rename_i u hu; exact hg.small _ u hu
            obtain ⟨st1, e1, h2⟩ := considerAll_below (ef := ef) (level := level)
              (st := { st with cands := q, visited := (markNew st.visited links).1, n := st.n + 1 }) ⟨h1.cands, h1.results⟩ hn
            have e1' : expand env sched ef level { st with cands := q } links = .ok st1 := e1
            rw [e1']
            exact ih h2

theorem searchLayer_below {env : SEnv V D} (hg : GraphOk env) {sched : Sched D} {eps : List (Item D)} {ef : Int} {level : Nat}
    (he : ∀ x ∈ eps, x.id < env.cacheSize) :
    searchLayer env sched eps ef level ≠ .error .panic ∧ ∀ r, searchLayer env sched eps ef level = .ok r → ∀ x ∈ r.toList, x.id < env.cacheSize := by
  unfold searchLayer
  cases hs : start env eps level with
  | error e =>
    refine ⟨?_, fun _ e => by cases e⟩
    unfold start worst0 at hs
    simp only at hs
    split at hs
    · rename_i e' he'
      split at he'
      · cases he'
      · split at he'
        · cases he'; cases hs; simp
        · cases he'
    · cases hs
  | ok st =>
    obtain ⟨h1, h2, _⟩ := start_ok hs
    have hb : Below env.cacheSize st :=
      ⟨fun x hx => he x (h1.mem_iff.mp hx), fun x hx => he x (List.mem_filter.mp (h2.mem_iff.mp hx)).1⟩
    obtain ⟨n1, n2⟩ := loop_below hg (sched := sched) (ef := ef) (level := level) (eps.length + env.keys.length + 1) hb
    simp only
    split
    · rename_i e hl
      refine ⟨?_, fun _ e => by cases e⟩
      intro hc
      cases hc
      exact n1 hl
    · rename_i st' hl
      exact ⟨by simp, fun r e => by cases e; exact (n2 st' hl).results⟩

end Fave.Search

namespace Fave.Graph
variable {V D : Type} [Dist D]
open Queue Search

/-- link lists are there, and all numbers are below the size of the vector cache -/
structure Fits (g : Graph V D) : Prop where
  conns : ∀ id v, g.get id = some v → ∀ l, l ≤ v.level → ∃ links, v.conns[l]? = some links
  small : ∀ id v, g.get id = some v → id < g.cacheSize

theorem Fits.ok {g : Graph V D} (h : g.Fits) (q : V) (allow : Option (Nat → Bool)) : GraphOk (g.senv q allow) := ⟨h.conns, h.small⟩

theorem Fits.layer {g : Graph V D} (h : g.Fits) (q : V) (allow : Option (Nat → Bool)) (sched : Sched D) {ep : Item D} (he : ep.id < g.cacheSize) (ef : Int)
    (level : Nat) : searchLayer (g.senv q allow) sched [ep] ef level ≠ .error .panic ∧
    ∀ r, searchLayer (g.senv q allow) sched [ep] ef level = .ok r → ∀ x ∈ r.toList, x.id < g.cacheSize :=
  searchLayer_below (h.ok q allow) (fun x hx => by rw [List.mem_singleton.mp hx]; exact he)

theorem present_of_dist {g : Graph V D} {id : Nat} {q : V} {d : D} (h : g.distNodeVec id q = some d) : ∃ v, g.get id = some v := by
  unfold distNodeVec at h
  split at h
  · cases h
  · rename_i v hv; exact ⟨v, hv⟩

theorem descend_calm {g : Graph V D} (h : g.Fits) (sched : Scheds D) (q : V) (level : Nat) {ep : Item D} (he : ep.id < g.cacheSize) :
    descend g sched q level ep ≠ .error .panic ∧ ∀ x, descend g sched q level ep = .ok x → x.id < g.cacheSize := by
  induction level generalizing ep with
  | zero => exact ⟨by simp [descend], fun x e => by cases e; exact he⟩
  | succ level ih =>
    obtain ⟨h1, h2⟩ := h.layer q none (sched (level + 1)) he 1 (level + 1)
    unfold descend
    split
    · rename_i e hs
      exact ⟨fun hc => by cases hc; exact h1 hs, fun _ e => by cases e⟩
    · rename_i r hr
      split
      · rename_i b r' hp
        exact ih (h2 r hr b ((pop_perm lessMax hp).mem_iff.mpr (by simp)))
      · exact ih he

theorem descendK_calm {g : Graph V D} (h : g.Fits) (sched : Scheds D) (q : V) (level : Nat) {ep : Item D} (he : ep.id < g.cacheSize) :
    descendK g sched q level ep ≠ .error .panic ∧ ∀ x, descendK g sched q level ep = .ok x → x.id < g.cacheSize := by
  induction level generalizing ep with
  | zero => exact ⟨by simp [descendK], fun x e => by cases e; exact he⟩
  | succ level ih =>
    obtain ⟨h1, h2⟩ := h.layer q none (sched (level + 1)) he 1 (level + 1)
    unfold descendK
    split
    · rename_i e hs
      exact ⟨fun hc => by cases hc; exact h1 hs, fun _ e => by cases e⟩
    · rename_i r hr
      split
      · rename_i b hp
        have hm : ∀ (l : List (Item D)), firstUsable g l = some b → b ∈ l := by
          intro l
          induction l with
          | nil => intro e; cases e
          | cons c cs ihl =>
            intro e
            unfold firstUsable at e
            split at e
            · exact List.mem_cons_of_mem _ (ihl e)
            · split at e
              · exact List.mem_cons_of_mem _ (ihl e)
              · cases e; simp
        exact ih (h2 r hr b ((drain_perm lessMax r).mem_iff.mp (hm _ hp)))
      · exact ih he

theorem retained_calm {g : Graph V D} (h : g.Fits) (sched : Scheds D) (q : V) (ef : Int) (allow : Option (Nat → Bool)) :
    g.retained sched q ef allow ≠ .error .panic := by
  unfold retained
  split
  · simp
  · rename_i d hd
    obtain ⟨v, hv⟩ := present_of_dist hd
    obtain ⟨h1, h2⟩ := descend_calm h sched q g.maxLayer (ep := ⟨g.entry, d⟩) (h.small _ v hv)
    split
    · rename_i e he
      intro hc; cases hc; exact h1 he
    · rename_i ep he
      exact (h.layer q allow (sched 0) (h2 ep he) ef 0).1

/-- a search within a distance does not panic -/
theorem knnMaxDist_calm {g : Graph V D} (h : g.Fits) (sched : Scheds D) (q : V) (max : D) (ef : Int) (allow : Option (Nat → Bool)) :
    g.knnMaxDist sched q max ef allow ≠ .error .panic := by
  have := retained_calm h sched (g.norm q) ef allow
  unfold knnMaxDist
  split
  · rename_i e he
    intro hc; cases hc; exact this he
  · simp

/-- a search for `k` nearest does not panic for `k ≥ 0` -/
theorem knnSearch_calm {g : Graph V D} (h : g.Fits) (isEmpty : Bool) (sched : Scheds D) (q : V) {k : Int} (hk : 0 ≤ k) (ef : Int)
    (allow : Option (Nat → Bool)) : g.knnSearch isEmpty sched q k ef allow ≠ .error .panic := by
  unfold knnSearch
  split
  · simp
  · split
    · simp
    · rename_i d hd
      obtain ⟨v, hv⟩ := present_of_dist hd
      obtain ⟨h1, h2⟩ := descendK_calm h sched q g.maxLayer (ep := ⟨g.entry, d⟩) (h.small _ v hv)
      split
      · rename_i e he
        intro hc; cases hc; exact h1 he
      · rename_i ep he
        split
        · rename_i e hs
          intro hc; cases hc
          exact (h.layer q allow (sched 0) (h2 ep he) ef 0).1 hs
        · rw [if_neg (by omega)]; simp

end Fave.Graph

namespace Fave.Index
variable {V D : Type} [Dist D]
open Queue Search

/-- a vertex with a link list for each of its layers, it and its links numbered below `n` -/
structure Fit (n : Nat) (v : Vertex V) : Prop where
  id : v.id < n
  conns : v.conns.length = v.level + 1
  links : ∀ (k : Nat) (l : List Nat), v.conns[k]? = some l → ∀ y ∈ l, y < n

/-- all vertices fit, and are stored under their numbers -/
structure Sound (n : Nat) (s : Index V) : Prop where
  ids : IdsOk s
  cache : ∀ id v, s.cache.get id = some v → Fit n v
  kv : ∀ id v, s.kv.get id = some v → Fit n v

theorem Fit.committed {n : Nat} {v : Vertex V} (h : Fit n v) (b : Bool) : Fit n { v with committed := b } := ⟨h.id, h.conns, h.links⟩

theorem Sound.get {n : Nat} {s : Index V} (h : Sound n s) {id : Nat} {v : Vertex V} (hg : s.get id = some v) : Fit n v := by
  unfold Index.get at hg
  split at hg
  · rename_i w hw; cases hg; exact h.cache _ _ hw
  · obtain ⟨w, hw, rfl⟩ := Option.map_eq_some_iff.mp hg
    exact (h.kv _ _ hw).committed _

theorem Sound.small {n : Nat} {s : Index V} (h : Sound n s) {id : Nat} {v : Vertex V} (hg : s.get id = some v) : id < n := by
  have := (h.get hg).id
  rw [h.ids.get hg] at this
  exact this

theorem Sound.fits {P : Params V D} {s : Index V} (h : Sound P.cacheSize s) : (s.graph P).Fits := by
  refine ⟨?_, fun id v hv => h.small hv⟩
  intro id v hv l hl
  have := (h.get hv).conns
  exact ⟨_, List.getElem?_eq_getElem (by omega)⟩

theorem Sound.put {n : Nat} {s : Index V} (h : Sound n s) {v : Vertex V} (hv : Fit n v) : Sound n (s.put v) := by
  refine ⟨idsOk_put h.ids v, fun id w hw => ?_, h.kv⟩
  simp only [Index.put, Tab.get_put] at hw
  split at hw
  · cases hw; exact hv
  · exact h.cache _ _ hw

theorem sound_init (n : Nat) : Sound n (init : Index V) :=
  ⟨⟨fun _ _ h => by simp [init] at h, fun _ _ h => by simp [init] at h⟩, fun _ _ h => by simp [init] at h, fun _ _ h => by simp [init] at h⟩

theorem Sound.scalars {n : Nat} {s s' : Index V} (h : Sound n s) (hc : s'.cache = s.cache) (hk : s'.kv = s.kv) : Sound n s' := by
  refine ⟨⟨?_, ?_⟩, ?_, ?_⟩
  · rw [hc]; exact h.ids.cache
  · rw [hk]; exact h.ids.kv
  · rw [hc]; exact h.cache
  · rw [hk]; exact h.kv

theorem Fit.raised {n : Nat} {v : Vertex V} (h : Fit n v) (level : Nat) : Fit n (raised v level) := by
  obtain ⟨h1, h2⟩ := raised_conns (l := level) h.conns
  refine ⟨by rw [raised_id]; exact h.id, h1, ?_⟩
  intro k l hk
  rcases h2 k l hk with h3 | rfl
  · exact h.links k l h3
  · intro y hy; cases hy

theorem Fit.setConns {n : Nat} {v : Vertex V} (h : Fit n v) (level : Nat) {links : List Nat} (hl : ∀ y ∈ links, y < n) : Fit n (setConns v level links) := by
  refine ⟨h.id, ?_, ?_⟩
  · show (v.conns.set level links).length = v.level + 1
    rw [List.length_set]; exact h.conns
  · intro k l hk
    rw [setConns_get] at hk
    split at hk
    · split at hk
      · cases hk; exact hl
      · cases hk
    · exact h.links k l hk

theorem vecGet_calm {P : Params V D} {vo : Nat → Option V} {id : Nat} (h : id < P.cacheSize) : vecGet P vo id ≠ .error .panic := by
  unfold vecGet
  rw [if_neg (by omega)]
  split <;> simp

theorem distNodes_calm {P : Params V D} {vo : Nat → Option V} {a b : Nat} (ha : a < P.cacheSize) (hb : b < P.cacheSize) :
    distNodes P vo a b ≠ .error .panic := by
  unfold distNodes
  split
  · rename_i e he; intro hc; cases hc; exact vecGet_calm ha he
  · split
    · simp
    · split
      · rename_i e he; intro hc; cases hc; exact vecGet_calm hb he
      · split
        · simp
        · split <;> simp

theorem overfull_calm {P : Params V D} {vo : Nat → Nat → Option V} {nb : Nat} (hb : nb < P.cacheSize) (cs : List Nat) (hc : ∀ c ∈ cs, c < P.cacheSize) (n : Nat)
    (q : Array (Item D)) : overfull P vo nb n cs q ≠ .error .panic := by
  induction cs generalizing n q with
  | nil => simp [overfull]
  | cons c cs ih =>
    unfold overfull
    split
    · rename_i e he; intro hc'; cases hc'; exact distNodes_calm (hc c (by simp)) hb he
    · exact ih (fun x hx => hc x (by simp [hx])) _ _

theorem heurLoop_calm {P : Params V D} {vo : Nat → Option V} {deny : Nat → Bool} {max : Nat} {ids : List Nat} (fuel : Nat)
    (closest : Array (ItemIx D)) (kept : List (ItemIx D)) : heurLoop P vo deny max ids fuel closest kept ≠ .error .panic := by
  induction fuel generalizing closest kept with
  | zero => simp [heurLoop]
  | succ fuel ih =>
    unfold heurLoop
    split
    · simp
    · split
      · simp
      · split
        · exact ih _ _
        · split
          · simp
          · exact ih _ _

theorem selectNeighbors_calm {P : Params V D} {vo : Nat → Option V} {deny : Nat → Bool} {max : Nat} {input : Array (Item D)}
    (h : ∀ x ∈ input.toList, x.id < P.cacheSize) : selectNeighbors P vo deny max input ≠ .error .panic := by
  unfold selectNeighbors
  split
  · simp
  · simp only
    split
    · rename_i ha
      obtain ⟨x, hx, hb⟩ := List.any_eq_true.mp ha
      have h1 := h x ((drain_perm lessMax input).mem_iff.mp hx)
      have h2 := of_decide_eq_true hb
      omega
    · split
      · rename_i e he; intro hc; cases hc; exact heurLoop_calm _ _ _ he
      · simp

/-- what is left of `input` has small numbers -/
theorem selected_small {P : Params V D} {vo : Nat → Option V} {deny : Nat → Bool} {max n : Nat} {input r : Array (Item D)}
    (h : ∀ x ∈ input.toList, x.id < n) (hr : selectNeighbors P vo deny max input = .ok r) : ∀ y ∈ (drain lessMax r).map Item.id, y < n := by
  intro y hy
  obtain ⟨x, hx, rfl⟩ := List.mem_map.mp ((selected_ids hr).2.2 y hy)
  exact h x hx

/-- `x` is stored with at least the layers up to `l` -/
def Reaches (x l : Nat) (s : Index V) : Prop := ∃ v, s.get x = some v ∧ l ≤ v.level

theorem Reaches.put {x l : Nat} {s : Index V} (h : Reaches x l s) {v : Vertex V} (hv : v.id = x → l ≤ v.level) : Reaches x l (s.put v) := by
  obtain ⟨u, hu, hl⟩ := h
  by_cases he : x = v.id
  · exact ⟨v, by rw [get_put, if_pos he], hv he.symm⟩
  · exact ⟨u, by rw [get_put, if_neg he]; exact hu, hl⟩

theorem connectNeighbor_calm {P : Params V D} (vo : VecOracle V) {x : Nat} (hx : x < P.cacheSize) {l : Nat} (level : Nat) {s : Index V} (h : Sound P.cacheSize s)
    (hr : Reaches x l s) (nb : Nat) :
    (connectNeighbor P vo x level s nb).2 ≠ some .panic ∧ Sound P.cacheSize (connectNeighbor P vo x level s nb).1 ∧
    Reaches x l (connectNeighbor P vo x level s nb).1 ∧ (connectNeighbor P vo x level s nb).1.maxLayer = s.maxLayer := by
  cases hg : s.get nb with
  | none => simp only [connectNeighbor, hg]; exact ⟨by simp, h, hr, trivial⟩
  | some v =>
    have hrr : (if level > v.level then upgrade { v with committed := false } level else { v with committed := false }) =
        raised v level := rfl
    have hf := (h.get hg).raised level
    have hnb := h.small hg
    have hid : (raised v level).id = nb := by rw [raised_id]; exact h.ids.get hg
    by_cases hxn : nb = x
    · simp only [connectNeighbor, hg, if_pos hxn]; exact ⟨by simp, h, hr, trivial⟩
    · have h1 := h.put hf
      have r1 : Reaches x l (s.put (raised v level)) := hr.put (fun e => absurd (hid.symm.trans e) hxn)
      have h2 : ∀ links, (∀ y ∈ links, y < P.cacheSize) → Sound P.cacheSize ((s.put (raised v level)).put (setConns (raised v level) level links)) :=
        fun links hl => h1.put (hf.setConns level hl)
      have r2 : ∀ links, Reaches x l ((s.put (raised v level)).put (setConns (raised v level) level links)) :=
        fun links => r1.put (fun e => absurd (hid.symm.trans e) hxn)
      simp only [connectNeighbor, hg, if_neg hxn, hrr]
      split
      · exact ⟨by simp, h, hr, rfl⟩
      · split
        · rename_i hc
          have := hf.conns
          have := (raised_level v level).2.1
          rw [List.getElem?_eq_getElem (by omega)] at hc
          cases hc
        · rename_i cur hc
          have hcur := hf.links _ _ hc
          split
          · exact ⟨by simp, h2 _ (fun y hy => (List.mem_append.mp hy).elim (hcur y) (fun e => by rw [List.mem_singleton.mp e]; exact hx)), r2 _, rfl⟩
          · split
            · rename_i e he
              exact ⟨fun hc => by cases hc; exact distNodes_calm hx hnb he, h1, r1, rfl⟩
            · rename_i d hd
              split
              · rename_i e he
                exact ⟨fun hc => by cases hc; exact overfull_calm hnb cur hcur _ _ he, h1, r1, rfl⟩
              · rename_i cands hov
                have hcs : ∀ y ∈ cands.toList, y.id < P.cacheSize := by
                  intro y hy
                  have := (overfull_perm hov).mem_iff.mp (List.mem_map_of_mem (f := Item.id) hy)
                  rcases List.mem_append.mp this with hy | hy
                  · exact hcur _ hy
                  · obtain ⟨z, hz, e⟩ := List.mem_map.mp hy
                    rw [← e]
                    rcases List.mem_cons.mp ((insert_perm lessMax #[] (⟨x, d⟩ : Item D)).mem_iff.mp hz) with rfl | hz
                    · exact hx
                    · cases hz
                split
                · rename_i e he
                  exact ⟨fun hc => by cases hc; exact selectNeighbors_calm hcs he, h1, r1, rfl⟩
                · rename_i kept hk
                  exact ⟨by simp, h2 _ (selected_small hcs hk), r2 _, rfl⟩

theorem connectAll_calm {P : Params V D} (vo : VecOracle V) {x : Nat} (hx : x < P.cacheSize) {l : Nat} (level : Nat) (nbs : List Nat) {s : Index V}
    (h : Sound P.cacheSize s) (hr : Reaches x l s) :
    (connectAll P vo x level s nbs).2 ≠ some .panic ∧ Sound P.cacheSize (connectAll P vo x level s nbs).1 ∧
    Reaches x l (connectAll P vo x level s nbs).1 ∧ (connectAll P vo x level s nbs).1.maxLayer = s.maxLayer := by
  induction nbs generalizing s with
  | nil => exact ⟨by simp [connectAll], h, hr, rfl⟩
  | cons nb nbs ih =>
    obtain ⟨h1, h2, h3, h4⟩ := connectNeighbor_calm vo hx level h hr nb
    unfold connectAll
    split
    · rename_i he; rw [he] at h1 h2 h3 h4; exact ⟨h1, h2, h3, h4⟩
    · rename_i he
      rw [he] at h2 h3 h4
      obtain ⟨a, b, c, d⟩ := ih h2 h3
      exact ⟨a, b, c, d.trans h4⟩

theorem pickEntry_calm {P : Params V D} {s : Index V} (h : Sound P.cacheSize s) (q : V) (n : Nat) (deny : List Nat) (cand : Nat) :
    pickEntry P s q n deny cand ≠ .error .panic ∧ ∀ x, pickEntry P s q n deny cand = .ok x → x.id < P.cacheSize := by
  induction n generalizing deny cand with
  | zero => exact ⟨by simp [pickEntry], fun _ e => by cases e⟩
  | succ n ih =>
    unfold pickEntry
    split
    · exact ih _ _
    · rename_i v hv
      split
      · exact ⟨by simp, fun _ e => by cases e⟩
      · exact ⟨by simp, fun x e => by cases e; exact h.small hv⟩

theorem findBest_calm {P : Params V D} {s : Index V} (h : Sound P.cacheSize s) (sched : Graph.Scheds D) (q : V) (target level ep : Nat) :
    findBest P s sched q target level ep ≠ .error .panic := by
  induction level generalizing ep with
  | zero => simp [findBest]
  | succ level ih =>
    unfold findBest
    split
    · simp
    · split
      · simp
      · rename_i d hd
        obtain ⟨v, hv⟩ := Graph.present_of_dist hd
        have := (h.fits.layer q none (sched (level + 1)) (ep := ⟨ep, d⟩) (h.fits.small _ v hv) 1 (level + 1)).1
        split
        · rename_i e he; intro hc; cases hc; exact this he
        · split
          · exact ih _
          · split <;> exact ih _

theorem doAtLevel_calm {P : Params V D} (vo : VecOracle V) (sched : Graph.Scheds D) (q : V) {x : Nat} (hx : x < P.cacheSize) {l : Nat} (ep : Nat) {level : Nat}
    (hl : level ≤ l) {s : Index V} (h : Sound P.cacheSize s) (hr : Reaches x l s) :
    (doAtLevel P vo sched q x s ep level).2 ≠ .error .panic ∧ Sound P.cacheSize (doAtLevel P vo sched q x s ep level).1 ∧
    Reaches x l (doAtLevel P vo sched q x s ep level).1 ∧ (doAtLevel P vo sched q x s ep level).1.maxLayer = s.maxLayer := by
  obtain ⟨p1, p2⟩ := pickEntry_calm h q 4 [] ep
  unfold doAtLevel
  split
  · rename_i e he; exact ⟨fun hc => by cases hc; exact p1 he, h, hr, rfl⟩
  · rename_i ep' he
    obtain ⟨s1, s2⟩ := h.fits.layer q none (sched level) (ep := ep') (p2 _ he) P.efC level
    split
    · rename_i e he; exact ⟨fun hc => by cases hc; exact s1 he, h, hr, rfl⟩
    · rename_i res hres
      split
      · rename_i e he; exact ⟨fun hc => by cases hc; exact selectNeighbors_calm (s2 _ hres) he, h, hr, rfl⟩
      · rename_i kept hk
        have hsm := selected_small (s2 _ hres) hk
        obtain ⟨v, hv, hlv⟩ := hr
        simp only [hv]
        have hf := h.get hv
        rw [if_neg (by rw [hf.conns]; omega)]
        have hr1 : Reaches x l (s.put (setConns v level ((drain lessMax kept).map Item.id))) :=
          ⟨setConns v level ((drain lessMax kept).map Item.id), by rw [get_put, if_pos (show x = (setConns v level _).id from (h.ids.get hv).symm)], hlv⟩
        obtain ⟨a, b, c, d⟩ := connectAll_calm vo hx level ((drain lessMax kept).map Item.id) (h.put (hf.setConns level hsm)) hr1
        split
        · rename_i he; rw [he] at a b c d; exact ⟨fun hc => by cases hc; exact a rfl, b, c, d⟩
        · rename_i he
          rw [he] at b c d
          split <;> exact ⟨by simp, b, c, d⟩

theorem doLevels_calm {P : Params V D} (vo : VecOracle V) (sched : Graph.Scheds D) (q : V) {x : Nat} (hx : x < P.cacheSize) {l : Nat} (n : Nat) (hn : n ≤ l + 1)
    (ep : Nat) {s : Index V} (h : Sound P.cacheSize s) (hr : Reaches x l s) :
    (doLevels P vo sched q x n s ep).2 ≠ some .panic ∧ Sound P.cacheSize (doLevels P vo sched q x n s ep).1 ∧
    Reaches x l (doLevels P vo sched q x n s ep).1 := by
  induction n generalizing s ep with
  | zero => exact ⟨by simp [doLevels], h, hr⟩
  | succ n ih =>
    obtain ⟨a, b, c, _⟩ := doAtLevel_calm vo sched q hx ep (show n ≤ l by omega) h hr
    unfold doLevels
    split
    · rename_i he; rw [he] at a b c; exact ⟨fun hc => by cases hc; exact a rfl, b, c⟩
    · rename_i he; rw [he] at b c; exact ih (by omega) _ b c

theorem connectNew_calm {P : Params V D} (vo : VecOracle V) (sched : Graph.Scheds D) (q : V) {x : Nat} (hx : x < P.cacheSize) {level : Nat} {s : Index V}
    (h : Sound P.cacheSize s) (hr : Reaches x level s) :
    (connectNew P vo sched s x q level).2 ≠ some .panic ∧ Sound P.cacheSize (connectNew P vo sched s x q level).1 := by
  unfold connectNew
  split
  · rename_i e he; exact ⟨fun hc => by cases hc; exact findBest_calm h sched q _ _ _ he, h⟩
  · rename_i ep _
    obtain ⟨a, b, c⟩ := doLevels_calm vo sched q hx (Nat.min level s.maxLayer + 1) (Nat.succ_le_succ (Nat.min_le_left level s.maxLayer)) ep h hr
    split
    · rename_i he; rw [he] at a b; exact ⟨a, b⟩
    · rename_i s1 he
      rw [he] at b c
      obtain ⟨v, hv, _⟩ := c
      simp only [hv]
      have hf := b.get hv
      have h2 : Sound P.cacheSize (s1.put { v with maint := false }) := b.put ⟨hf.id, hf.conns, hf.links⟩
      split
      · exact ⟨by simp, h2.scalars rfl rfl⟩
      · exact ⟨by simp, h2⟩

theorem fit_newNode {n x : Nat} (hx : x < n) (q : V) (level : Nat) : Fit n (newNode x q level) := by
  refine ⟨hx, by simp [newNode], ?_⟩
  intro k l hk y hy
  simp only [newNode, List.getElem?_replicate] at hk
  split at hk
  · cases hk; cases hy
  · cases hk

/-- the addition is the first of its collection -/
def First (s : Index V) : Prop := s.once = false ∧ s.isEmpty = true

theorem add_calm {P : Params V D} (vo : VecOracle V) (sched : Graph.Scheds D) {s : Index V} (h : Sound P.cacheSize s) (x : Nat) (vec : V) (level : Nat) :
    ((add P vo sched s x vec level).2 = some .panic ↔ P.metric.len vec ≠ 0 ∧ P.cacheSize ≤ x) ∧
    ((First s → x < P.cacheSize) → Sound P.cacheSize (add P vo sched s x vec level).1) := by
  unfold add
  split
  · rename_i hl; exact ⟨by simp [hl], fun _ => h⟩
  · rename_i hl
    unfold insertNode
    split
    · rename_i hfirst
      have hfirst : First s := by simpa [First] using hfirst
      unfold insertInitial
      refine ⟨?_, fun hx => ?_⟩
      · simp only; split <;> simp [*]
      · refine Sound.put (s := { s with once := true, entry := x, maxLayer := 0 }) (h.scalars rfl rfl)
          (v := { id := x, level := 0, conns := [[]], maint := false, vec := P.norm vec, committed := false }) ⟨hx hfirst, rfl, ?_⟩
        intro k l hk y hy
        cases k with
        | zero => simp at hk; subst hk; cases hy
        | succ k => simp at hk
    · simp only
      split
      · rename_i hx; exact ⟨by simp [hl, hx], fun _ => h.scalars rfl rfl⟩
      · rename_i hx
        have hx : x < P.cacheSize := by omega
        have h1 : Sound P.cacheSize (({ s with once := true } : Index V).put (newNode x (P.norm vec) level)) :=
          Sound.put (s := { s with once := true }) (h.scalars rfl rfl) (fit_newNode hx _ _)
        obtain ⟨a, b⟩ := connectNew_calm vo sched (P.norm vec) hx (level := level) h1
          ⟨_, by rw [get_put, if_pos (show x = (newNode x (P.norm vec) level).id from rfl)], Nat.le_refl _⟩
        exact ⟨⟨fun hc => absurd hc a, fun hc => by omega⟩, fun _ => b⟩

theorem Sound.write {n : Nat} {s : Index V} (h : Sound n s) (w : Write V) (hw : ∀ v, w = .node v → Fit n v) : Sound n (applyWrite s w) := by
  cases w with
  | entry _ => exact h.scalars rfl rfl
  | count _ => exact h.scalars rfl rfl
  | node v =>
    have hv := hw v rfl
    refine ⟨⟨fun id u hu => ?_, fun id u hu => ?_⟩, fun id u hu => ?_, fun id u hu => ?_⟩ <;>
    · simp only [applyWrite, Tab.get_put] at hu
      split at hu
      · cases hu; first | exact hv.committed _ | (rename_i e; exact e.symm)
      · first | exact h.ids.cache _ _ hu | exact h.ids.kv _ _ hu | exact h.cache _ _ hu | exact h.kv _ _ hu

theorem Sound.writes {n : Nat} (ws : List (Write V)) {s : Index V} (h : Sound n s) (hw : ∀ v, .node v ∈ ws → Fit n v) : Sound n (ws.foldl applyWrite s) := by
  induction ws generalizing s with
  | nil => exact h
  | cons w ws ih => exact ih (h.write w (fun v e => hw v (by simp [e]))) (fun v hv => hw v (by simp [hv]))

theorem Sound.flushWrites {n : Nat} {s : Index V} (h : Sound n s) (order : List Nat) (m : Nat) : ∀ v, .node v ∈ s.flushWrites order m → Fit n v := by
  intro v hv
  simp only [Index.flushWrites, dirty, List.mem_append, List.mem_map, List.mem_filterMap, List.mem_cons, reduceCtorEq, List.not_mem_nil, or_self, or_false] at hv
  obtain ⟨w, ⟨id, _, hb⟩, e⟩ := hv
  cases e
  obtain ⟨u, hu, hif⟩ := Option.bind_eq_some_iff.mp hb
  split at hif
  · cases hif
  · cases hif; exact h.cache _ _ hu

theorem Sound.flushed {n : Nat} {s : Index V} (h : Sound n s) {order : List Nat} {m : Nat} {ws : List (Write V)} (hp : ws <+: s.flushWrites order m) :
    Sound n (ws.foldl applyWrite s) := h.writes _ (fun v hv => h.flushWrites order m v (hp.subset hv))

theorem Sound.flush {n : Nat} {s : Index V} (h : Sound n s) (P : Params V D) (order : List Nat) (m : Nat) : Sound n (Index.flush P s order m).1 :=
  h.flushed (flushUpToBad_prefix P (s.flushWrites order m)).1

theorem Sound.reopen {n : Nat} {s : Index V} (h : Sound n s) : Sound n s.reopen :=
  ⟨⟨fun _ _ hg => by simp [Index.reopen] at hg, h.ids.kv⟩, fun _ _ hg => by simp [Index.reopen] at hg, h.kv⟩

end Fave.Index
