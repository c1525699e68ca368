import Verif.Model.Delete
import Verif.Lemmas.History
/-!
# Facts about deletion and clean-up
-/
namespace Fave.Search
variable {V D : Type} [Dist D]
open Queue

/-! ## results of a layer search are viable, whatever the start -/

theorem consider_viable {env : SEnv V D} {ef : Int} {level : Nat} {st st' : St D} {nd : Item D}
    (h : consider env ef level st nd = .ok st') (hv : ∀ x ∈ st.results.toList, viable env level x.id = true) :
    ∀ x ∈ st'.results.toList, viable env level x.id = true := by
  cases consider_ok h with
  | skip _ _ h => subst h; exact hv
  | cand _ h => subst h; exact hv
  | both hn t ht hcs r w hr hw h =>
    subst h
    have hins : ∀ x ∈ (insert lessMax st.results nd).toList, viable env level x.id = true := by
      intro x hx
      rcases List.mem_cons.mp ((insert_perm lessMax st.results nd).mem_iff.mp hx) with rfl | hx
      · exact hn
      · exact hv x hx
    intro x hx
    rcases hr with ⟨rfl, _⟩ | ⟨⟨y, hp⟩, _⟩
    · exact hins x hx
    · refine hins x ((pop_perm lessMax hp).mem_iff.mpr ?_)
      exact List.mem_cons_of_mem _ hx

theorem considerAll_viable {env : SEnv V D} {ef : Int} {level : Nat} {nds : List (Item D)} {st st' : St D}
    (h : considerAll env ef level st nds = .ok st') (hv : ∀ x ∈ st.results.toList, viable env level x.id = true) :
    ∀ x ∈ st'.results.toList, viable env level x.id = true := by
  induction nds generalizing st with
  | nil => cases h; exact hv
  | cons nd nds ih =>
    unfold considerAll at h
    split at h
    · cases h
    · rename_i st1 h1
      exact ih h (consider_viable h1 hv)

theorem loop_viable {env : SEnv V D} {sched : Sched D} {ef : Int} {level : Nat} (fuel : Nat) {st st' : St D}
    (h : loop env sched ef level fuel st = .ok st') (hv : ∀ x ∈ st.results.toList, viable env level x.id = true) :
    ∀ x ∈ st'.results.toList, viable env level x.id = true := by
  induction fuel generalizing st with
  | zero => cases h
  | succ fuel ih =>
    unfold loop at h
    split at h
    · cases h; exact hv
    · split at h
      · cases h; exact hv
      · simp only at h
        split at h
        · exact ih h hv
        · split at h
          · exact ih h hv
          · split at h
            · cases h
            · split at h
              · cases h
              · rename_i st1 h1
                exact ih h (considerAll_viable h1 hv)

/-- no hypothesis on entry points or the graph -/
theorem searchLayer_viable {env : SEnv V D} {sched : Sched D} {eps : List (Item D)} {ef : Int} {level : Nat} {r : Array (Item D)}
    (h : searchLayer env sched eps ef level = .ok r) : ∀ x ∈ r.toList, viable env level x.id = true := by
  unfold searchLayer at h
  split at h
  · cases h
  · rename_i st hs
    split at h
    · cases h
    · rename_i st' hl
      cases h
      refine loop_viable _ hl ?_
      intro x hx
      exact (List.mem_filter.mp ((start_ok hs).2.1.mem_iff.mp hx)).2

theorem viable_tomb {env : SEnv V D} {level id : Nat} (h : viable env level id = true) : env.tomb id = false := by
  unfold viable at h
  rw [Bool.and_eq_true] at h
  simpa using h.2

end Fave.Search

namespace Fave.Graph
variable {V D : Type} [Dist D]
open Queue Search

theorem knnMaxDist_unmarked {g : Graph V D} {sched : Scheds D} {q : V} {max : D} {ef : Int} {allow : Option (Nat → Bool)} {ids : List Nat}
    {ds : List D} (h : g.knnMaxDist sched q max ef allow = .ok (ids, ds)) : ∀ id ∈ ids, g.tomb id = false := by
  unfold knnMaxDist at h
  split at h
  · cases h
  · rename_i res hres
    simp only [Except.ok.injEq, Prod.mk.injEq] at h
    obtain ⟨rfl, _⟩ := h
    intro id hid
    obtain ⟨x, hx, rfl⟩ := List.mem_map.mp hid
    obtain ⟨d, ep, _, _, hr⟩ := retained_ok hres
    have := (keepInRange_sublist max _).subset hx
    have := (drain_perm _ _).mem_iff.mp (List.mem_reverse.mp this)
    exact viable_tomb (searchLayer_viable hr x this)

theorem knnSearch_unmarked {g : Graph V D} {isEmpty : Bool} {sched : Scheds D} {q : V} {k ef : Int} {allow : Option (Nat → Bool)}
    {hits : List (Item D)} (h : g.knnSearch isEmpty sched q k ef allow = .ok hits) : ∀ x ∈ hits, g.tomb x.id = false := by
  unfold knnSearch at h
  split at h
  · cases h; intro x hx; cases hx
  · split at h
    · cases h
    · split at h
      · cases h
      · split at h
        · cases h
        · rename_i res hr
          split at h
          · cases h
          · cases h
            intro x hx
            have := List.mem_of_mem_take hx
            have := (drain_perm _ _).mem_iff.mp (List.mem_reverse.mp this)
            exact viable_tomb (searchLayer_viable hr x this)

theorem flatStep_unmarked {g : Graph V D} {q : V} {limit : Int} {res r : Array (Item D)} {c : Nat} (h : flatStep g q limit res c = .ok r)
    (hv : ∀ x ∈ res.toList, g.tomb x.id = false) : ∀ x ∈ r.toList, g.tomb x.id = false := by
  unfold flatStep at h
  split at h
  · cases h; exact hv
  · split at h
    · cases h; exact hv
    · rename_i ht
      have ht : g.tomb c = false := by simpa using ht
      split at h
      · cases h
      · rename_i d _
        have ins : ∀ (a : Array (Item D)), (∀ x ∈ a.toList, g.tomb x.id = false) →
            ∀ x ∈ (insert lessMax a (⟨c, d⟩ : Item D)).toList, g.tomb x.id = false := by
          intro a ha x hx
          rcases List.mem_cons.mp ((insert_perm lessMax a _).mem_iff.mp hx) with rfl | hx
          · exact ht
          · exact ha x hx
        split at h
        · cases h; exact ins _ hv
        · split at h
          · cases h
          · split at h
            · split at h
              · cases h
              · rename_i y res' hp
                cases h
                refine ins _ (fun x hx => hv x ?_)
                exact (pop_perm lessMax hp).mem_iff.mpr (List.mem_cons_of_mem _ hx)
            · cases h; exact hv

theorem flatLoop_unmarked {g : Graph V D} {q : V} {limit : Int} {ids : List Nat} {res r : Array (Item D)}
    (h : flatLoop g q limit res ids = .ok r) (hv : ∀ x ∈ res.toList, g.tomb x.id = false) : ∀ x ∈ r.toList, g.tomb x.id = false := by
  induction ids generalizing res with
  | nil => cases h; exact hv
  | cons c ids ih =>
    unfold flatLoop at h
    split at h
    · cases h
    · rename_i h1; exact ih h (flatStep_unmarked h1 hv)

theorem flatSearch_unmarked {g : Graph V D} {q : V} {limit : Int} {ids : List Nat} {hits : List (Item D)}
    (h : g.flatSearch q limit ids = .ok hits) : ∀ x ∈ hits, g.tomb x.id = false := by
  unfold flatSearch at h
  split at h
  · cases h
  · split at h
    · cases h
    · rename_i h1
      cases h
      intro x hx
      exact flatLoop_unmarked h1 (by simp) x ((drain_perm _ _).mem_iff.mp (List.mem_reverse.mp hx))

theorem searchByVector_unmarked {g : Graph V D} {c : EfConfig} {isEmpty : Bool} {sched : Scheds D} {q : V} {k : Int}
    {allow : Option (List Nat)} {hits : List (Item D)} (h : g.searchByVector c isEmpty sched q k allow = .ok hits) :
    ∀ x ∈ hits, g.tomb x.id = false := by
  unfold searchByVector at h
  simp only at h
  split at h
  · split at h
    · exact flatSearch_unmarked h
    · exact knnSearch_unmarked h
  · exact knnSearch_unmarked h

end Fave.Graph

namespace Fave.Index
variable {V D : Type} [Dist D]
open Queue

/-! ## the insertion code with an empty deny list -/

theorem connectNeighborD_nil (P : Params V D) (vo : VecOracle V) (x level : Nat) (s : Index V) (nb : Nat) :
    connectNeighborD P [] vo x level s nb = connectNeighbor P vo x level s nb := by
  have h : ([] : List Nat).contains = fun _ => false := by funext i; rfl
  unfold connectNeighborD connectNeighbor
  simp only [h]
  rfl

theorem connectAllD_nil (P : Params V D) (vo : VecOracle V) (x level : Nat) (s : Index V) (nbs : List Nat) :
    connectAllD P [] vo x level s nbs = connectAll P vo x level s nbs := by
  induction nbs generalizing s with
  | nil => rfl
  | cons nb nbs ih =>
    unfold connectAllD connectAll
    rw [connectNeighborD_nil]
    split <;> simp only [*]

theorem doAtLevelD_nil (P : Params V D) (vo : VecOracle V) (sched : Graph.Scheds D) (q : V) (x : Nat) (s : Index V) (ep level : Nat) :
    doAtLevelD P [] vo sched q x s ep level = doAtLevel P vo sched q x s ep level := by
  have h : ([] : List Nat).contains = fun _ => false := by funext i; rfl
  unfold doAtLevelD doAtLevel
  simp only [h, connectAllD_nil]
  rfl

theorem doLevelsD_nil (P : Params V D) (vo : VecOracle V) (sched : Graph.Scheds D) (q : V) (x : Nat) (n : Nat) (s : Index V) (ep : Nat) :
    doLevelsD P [] vo sched q x n s ep = doLevels P vo sched q x n s ep := by
  induction n generalizing s ep with
  | zero => rfl
  | succ level ih =>
    unfold doLevelsD doLevels
    rw [doAtLevelD_nil]
    split <;> simp only [*]

/-! ## links to the deleted numbers -/

/-- no link of the node leads to a number of the list -/
def CleanNode (dl : List Nat) (v : Vertex V) : Prop := ∀ links ∈ v.conns, ∀ i ∈ links, i ∉ dl

/-- the nodes with the numbers in `S` have no link to a number of the list -/
def CleanOn (dl : List Nat) (S : Nat → Prop) (s : Index V) : Prop := ∀ id v, S id → s.get id = some v → CleanNode dl v

theorem pointsTo_false {dl : List Nat} {v : Vertex V} (h : pointsTo dl v = false) : CleanNode dl v := by
  intro links hl i hi hd
  unfold pointsTo at h
  rw [List.any_eq_false] at h
  have := h links hl
  simp only [Bool.not_eq_true, List.any_eq_false] at this
  have h2 := this i hi
  rw [List.contains_eq_mem] at h2
  simp [hd] at h2

theorem clean_raised {dl : List Nat} {v : Vertex V} {level : Nat} (h : CleanNode dl v) : CleanNode dl (raised v level) := by
  unfold raised
  split
  · intro links hl
    simp only [upgrade, List.mem_append] at hl
    rcases hl with hl | hl
    · exact h links hl
    · rw [(List.mem_replicate.mp hl).2]; intro i hi; cases hi
  · exact h

theorem clean_setConns {dl : List Nat} {v : Vertex V} {level : Nat} {links : List Nat} (h : CleanNode dl v) (hl : ∀ i ∈ links, i ∉ dl) :
    CleanNode dl (setConns v level links) := by
  intro ls hls
  simp only [setConns] at hls
  rcases List.mem_or_eq_of_mem_set hls with h1 | rfl
  · exact h ls h1
  · exact hl

theorem cleanOn_put {dl : List Nat} {S : Nat → Prop} {s : Index V} {v : Vertex V} (h : CleanOn dl S s) (hv : S v.id → CleanNode dl v) :
    CleanOn dl S (s.put v) := by
  intro id w hS hg
  rw [get_put] at hg
  by_cases h1 : id = v.id
  · rw [if_pos h1] at hg; cases hg; exact hv (h1 ▸ hS)
  · rw [if_neg h1] at hg; exact h id w hS hg

/-- what the relinking of one node preserves -/
structure Relinked (dl : List Nat) (S : Nat → Prop) (s s' : Index V) : Prop where
  same : Same s s'
  ids : IdsOk s → IdsOk s'
  clean : IdsOk s → CleanOn dl S s → CleanOn dl S s'
  none : IdsOk s → ∀ id, s.get id = none ↔ s'.get id = none

theorem Relinked.refl (dl : List Nat) (S : Nat → Prop) (s : Index V) : Relinked dl S s s := ⟨Same.refl s, id, fun _ h => h, fun _ _ => Iff.rfl⟩

theorem Relinked.trans {dl : List Nat} {S : Nat → Prop} {a b c : Index V} (h : Relinked dl S a b) (h' : Relinked dl S b c) : Relinked dl S a c :=
  ⟨h.same.trans h'.same, fun i => h'.ids (h.ids i), fun i c => h'.clean (h.ids i) (h.clean i c),
   fun i id => (h.none i id).trans (h'.none (h.ids i) id)⟩

theorem relinked_put {dl : List Nat} {S : Nat → Prop} {s : Index V} {id : Nat} {v u : Vertex V} (hg : s.get id = some v) (hu : u.id = v.id)
    (hc : S u.id → (CleanNode dl v → CleanNode dl u)) : Relinked dl S s (s.put u) := by
  refine ⟨same_put s u, fun h => idsOk_put h u, fun hi h => cleanOn_put h ?_, ?_⟩
  · intro hS
    refine hc hS (h id v ?_ hg)
    rw [← hi.get hg, ← hu]; exact hS
  · intro hi j
    rw [get_put]
    have : u.id = id := hu.trans (hi.get hg)
    by_cases h1 : j = u.id
    · rw [if_pos h1, h1, this, hg]; simp
    · rw [if_neg h1]

theorem connectNeighborD_relinked (P : Params V D) {dl : List Nat} (S : Nat → Prop) (vo : VecOracle V) {x : Nat} (hx : x ∉ dl) (level : Nat)
    (s : Index V) (nb : Nat) : Relinked dl S s (connectNeighborD P dl vo x level s nb).1 := by
  cases hg : s.get nb with
  | none => simp only [connectNeighborD, hg]; exact .refl _ _ s
  | some v =>
    by_cases hx' : nb = x
    · simp only [connectNeighborD, hg, if_pos hx']; exact .refl _ _ s
    · by_cases ht : s.tombs.contains nb = true
      · simp only [connectNeighborD, hg, if_neg hx', ht, if_true]; exact .refl _ _ s
      · have ht' : s.tombs.contains nb = false := by simpa using ht
        have hr : (if level > v.level then upgrade { v with committed := false } level else { v with committed := false }) =
            raised v level := rfl
        have e1 : Relinked dl S s (s.put (raised v level)) := relinked_put hg (raised_id v level) (fun _ h => clean_raised h)
        have e2 : ∀ links, (CleanNode dl (raised v level) → ∀ i ∈ links, i ∉ dl) →
            Relinked dl S s ((s.put (raised v level)).put (setConns (raised v level) level links)) := by
          intro links hl
          refine e1.trans (relinked_put (id := (raised v level).id) (v := raised v level) ?_ rfl (fun _ h => clean_setConns h (hl h)))
          rw [get_put, if_pos rfl]
        simp only [connectNeighborD, hg, if_neg hx', ht', Bool.false_eq_true, if_false]
        simp only [hr]
        split
        · exact e1
        · rename_i cur hcur
          split
          · refine e2 _ (fun hc i hi => ?_)
            rcases List.mem_append.mp hi with hi | hi
            · exact hc cur (List.mem_of_getElem? hcur) i hi
            · rw [List.mem_singleton.mp hi]; exact hx
          · split
            · exact e1
            · rename_i d _
              split
              · exact e1
              · rename_i cands ho
                split
                · exact e1
                · rename_i kept hs
                  refine e2 _ (fun hc i hi => ?_)
                  have h1 := (selected_ids hs).2.2 i hi
                  have h2 := (overfull_perm ho).mem_iff.mp h1
                  rcases List.mem_append.mp h2 with h2 | h2
                  · exact hc cur (List.mem_of_getElem? hcur) i h2
                  · have := ((insert_perm lessMax #[] (⟨x, d⟩ : Item D)).map Item.id).mem_iff.mp h2
                    simp only [List.map_cons, List.map_nil, List.mem_singleton] at this
                    rw [this]; exact hx

theorem connectAllD_relinked (P : Params V D) {dl : List Nat} (S : Nat → Prop) (vo : VecOracle V) {x : Nat} (hx : x ∉ dl) (level : Nat)
    (s : Index V) (nbs : List Nat) : Relinked dl S s (connectAllD P dl vo x level s nbs).1 := by
  induction nbs generalizing s with
  | nil => exact .refl _ _ s
  | cons nb nbs ih =>
    unfold connectAllD
    have h := connectNeighborD_relinked P S vo hx level s nb
    split
    · rename_i he; rw [he] at h; exact h
    · rename_i he; rw [he] at h; exact h.trans (ih _)

theorem doAtLevelD_relinked (P : Params V D) {dl : List Nat} (S : Nat → Prop) (vo : VecOracle V) (sched : Graph.Scheds D) (q : V) {x : Nat}
    (hx : x ∉ dl) (s : Index V) (ep level : Nat) (ht : ∀ i ∈ dl, i ∈ s.tombs) :
    Relinked dl S s (doAtLevelD P dl vo sched q x s ep level).1 := by
  unfold doAtLevelD
  split
  · exact .refl _ _ s
  · split
    · exact .refl _ _ s
    · rename_i results hres
      split
      · exact .refl _ _ s
      · rename_i kept hk
        simp only
        split
        · exact .refl _ _ s
        · rename_i v hv
          split
          · exact .refl _ _ s
          · have hlinks : ∀ i ∈ (drain lessMax kept).map Item.id, i ∉ dl := by
              intro i hi hd
              have h1 := (selected_ids hk).2.2 i hi
              obtain ⟨y, hy, rfl⟩ := List.mem_map.mp h1
              have := Search.viable_tomb (Search.searchLayer_viable hres y hy)
              have h2 : s.tombs.contains y.id = false := this
              rw [List.contains_eq_mem] at h2
              simp [ht _ hd] at h2
            have h0 : Relinked dl S s (s.put (setConns v level ((drain lessMax kept).map Item.id))) :=
              relinked_put hv rfl (fun _ h => clean_setConns h hlinks)
            have h := connectAllD_relinked P S vo hx level (s.put (setConns v level ((drain lessMax kept).map Item.id)))
              ((drain lessMax kept).map Item.id)
            split
            · rename_i he; rw [he] at h; exact h0.trans h
            · rename_i he; rw [he] at h
              split
              · exact h0.trans h
              · exact h0.trans h

theorem doLevelsD_relinked (P : Params V D) {dl : List Nat} (S : Nat → Prop) (vo : VecOracle V) (sched : Graph.Scheds D) (q : V) {x : Nat}
    (hx : x ∉ dl) (n : Nat) (s : Index V) (ep : Nat) (ht : ∀ i ∈ dl, i ∈ s.tombs) :
    Relinked dl S s (doLevelsD P dl vo sched q x n s ep).1 := by
  induction n generalizing s ep with
  | zero => exact .refl _ _ s
  | succ level ih =>
    unfold doLevelsD
    have h := doAtLevelD_relinked P S vo sched q hx s ep level ht
    split
    · rename_i he; rw [he] at h; exact h
    · rename_i s1 ep1 he; rw [he] at h
      exact h.trans (ih s1 ep1 (by rw [show s1.tombs = s.tombs from h.same.tombs]; exact ht))

/-- relinking one node: nothing gets a link into the list, and after success the node itself has none -/
theorem reassign_relinked (P : Params V D) (E : CleanEnv V D) {dl : List Nat} (S : Nat → Prop) (s : Index V) (n : Nat) (hi : IdsOk s)
    (ht : ∀ i ∈ dl, i ∈ s.tombs) :
    Relinked dl S s (reassign P E dl s n).1 ∧
    ((reassign P E dl s n).2 = none → n ∉ dl → ∀ v, (reassign P E dl s n).1.get n = some v → CleanNode dl v) := by
  unfold reassign
  split
  · rename_i hg
    exact ⟨.refl _ _ s, fun _ _ v hv => by rw [hg] at hv; cases hv⟩
  · rename_i v hg
    have hid := hi.get hg
    split
    · rename_i hd
      refine ⟨.refl _ _ s, fun _ hn => ?_⟩
      rw [hid] at hd
      exact absurd (by simpa using hd) hn
    · rename_i hd
      have hnd : n ∉ dl := by rw [hid] at hd; simpa using hd
      split
      · exact ⟨.refl _ _ s, nofun⟩
      · rename_i q _
        split
        · rename_i hp
          refine ⟨.refl _ _ s, fun _ _ w hw => ?_⟩
          rw [hg] at hw; cases hw
          exact pointsTo_false (by simpa using hp)
        · split
          · exact ⟨.refl _ _ s, nofun⟩
          · rename_i ep _
            split
            · have hcl : CleanNode dl ({ v with conns := List.replicate (v.level + 1) [] } : Vertex V) := by
                intro links hl; rw [(List.mem_replicate.mp hl).2]; intro i hi; cases hi
              refine ⟨relinked_put hg rfl (fun _ _ => hcl), fun _ _ w hw => ?_⟩
              rw [get_put, if_pos (show n = v.id from hid.symm)] at hw
              cases hw; exact hcl
            · have hcl : CleanNode dl ({ v with maint := true, conns := v.conns.map (fun _ => []) } : Vertex V) := by
                intro links hl
                obtain ⟨_, _, rfl⟩ := List.mem_map.mp hl
                intro i hi; cases hi
              have e0 : Relinked dl (fun id => S id ∨ id = n) s (s.put { v with maint := true, conns := v.conns.map (fun _ => []) }) :=
                relinked_put hg rfl (fun _ _ => hcl)
              have e0S : Relinked dl S s (s.put { v with maint := true, conns := v.conns.map (fun _ => []) }) :=
                relinked_put hg rfl (fun _ _ => hcl)
              simp only
              generalize hs1 : s.put { v with maint := true, conns := v.conns.map (fun _ => []) } = s1 at e0 e0S
              have ht1 : ∀ i ∈ dl, i ∈ s1.tombs := by rw [e0.same.tombs]; exact ht
              have hi1 := e0.ids hi
              have hn1 : CleanOn dl (fun id => id = n) s1 := by
                rintro id w rfl hw
                rw [← hs1, get_put, if_pos (show id = v.id from hid.symm)] at hw
                cases hw; exact hcl
              have eS := doLevelsD_relinked P S (E.vo n) (E.sched n) q hnd (Nat.min v.level s1.maxLayer + 1) s1 ep ht1
              have eN := doLevelsD_relinked P (fun id => id = n) (E.vo n) (E.sched n) q hnd (Nat.min v.level s1.maxLayer + 1) s1 ep ht1
              split
              · rename_i he; rw [he] at eS; exact ⟨e0S.trans eS, nofun⟩
              · rename_i s2 he
                rw [he] at eS eN
                have eS : Relinked dl S s1 s2 := eS
                have eN : Relinked dl (fun id => id = n) s1 s2 := eN
                split
                · exact ⟨e0S.trans eS, nofun⟩
                · rename_i w hw
                  have hcw := eN.clean hi1 hn1 n w rfl hw
                  have e3 : Relinked dl S s2 (s2.put { w with maint := false }) := relinked_put hw rfl (fun _ h => h)
                  refine ⟨(e0S.trans eS).trans e3, fun _ _ u hu => ?_⟩
                  rw [get_put, if_pos (show n = w.id from ((eS.ids hi1).get hw).symm)] at hu
                  cases hu
                  exact hcw

theorem reassignLoop_relinked (P : Params V D) (E : CleanEnv V D) {dl : List Nat} (S : Nat → Prop) (ns : List Nat) (s : Index V) (hi : IdsOk s)
    (ht : ∀ i ∈ dl, i ∈ s.tombs) :
    Relinked dl S s (reassignLoop P E dl ns s).1 ∧
    ((reassignLoop P E dl ns s).2 = .ok true → CleanOn dl (fun n => n ∈ ns ∧ n ∉ dl) (reassignLoop P E dl ns s).1) := by
  induction ns generalizing s S with
  | nil => exact ⟨.refl _ _ s, fun _ id v hS => by cases hS.1⟩
  | cons n ns ih =>
    unfold reassignLoop
    split
    · exact ⟨.refl _ _ s, nofun⟩
    · have h := fun S => reassign_relinked P E S s n hi ht
      split
      · rename_i he
        have h1 := (h S).1
        rw [he] at h1
        exact ⟨h1, nofun⟩
      · rename_i s1 he
        rw [he] at h
        have h1 : Relinked dl S s s1 := (h S).1
        have ht1 : ∀ i ∈ dl, i ∈ s1.tombs := by rw [h1.same.tombs]; exact ht
        have hi1 := h1.ids hi
        refine ⟨h1.trans (ih S s1 hi1 ht1).1, fun hok => ?_⟩
        have hrest := (ih S s1 hi1 ht1).2 hok
        have hn := (ih (fun id => id = n ∧ n ∉ dl) s1 hi1 ht1).1.clean hi1 (by
          rintro id v ⟨rfl, hd⟩ hv
          exact (h S).2 rfl hd v hv)
        intro id v hS hv
        rcases List.mem_cons.mp hS.1 with rfl | hm
        · exact hn id v ⟨rfl, hS.2⟩ hv
        · exact hrest id v ⟨hm, hS.2⟩ hv

/-! ## removal -/

theorem tab_get_filter {α : Type} (t : Tab α) (k j : Nat) : Tab.get (t.filter (fun e => e.1 ≠ k)) j = if j = k then none else t.get j := by
  induction t with
  | nil => simp
  | cons e t ih =>
    obtain ⟨k', v⟩ := e
    rw [List.filter_cons]
    by_cases h : k' = k
    · subst h
      simp only [ne_eq, not_true_eq_false, decide_false, Bool.false_eq_true, if_false]
      rw [ih]
      by_cases h2 : j = k'
      · simp [h2]
      · rw [if_neg h2, if_neg h2]; simp only [Tab.get]; rw [if_neg (fun e => h2 e.symm)]
    · simp only [ne_eq, h, not_false_eq_true, decide_true, if_true, Tab.get]
      rw [ih]
      by_cases h2 : k' = j
      · subst h2; simp [h]
      · simp [h2]

/-- what removing the marks and the nodes does -/
structure Removed (dl : List Nat) (s s' : Index V) : Prop where
  cache : s'.cache = s.cache
  entry : s'.entry = s.entry
  maxLayer : s'.maxLayer = s.maxLayer
  once : s'.once = s.once
  kvEntry : s'.kvEntry = s.kvEntry
  kvCount : s'.kvCount = s.kvCount
  keep : ∀ id, id ∉ dl → s'.kv.get id = s.kv.get id
  sub : ∀ id v, s'.kv.get id = some v → s.kv.get id = some v
  tombs : ∀ id, id ∈ s'.tombs → id ∈ s.tombs
  others : ∀ id, id ∈ s.tombs → id ∉ dl → id ∈ s'.tombs

theorem removeLoop_removed (E : CleanEnv V D) (dl : List Nat) (s : Index V) : Removed dl s (removeLoop E dl s).1 := by
  induction dl generalizing s with
  | nil => exact ⟨rfl, rfl, rfl, rfl, rfl, rfl, fun _ _ => rfl, fun _ _ h => h, fun _ h => h, fun _ h _ => h⟩
  | cons x dl ih =>
    unfold removeLoop
    simp only
    have hf : ∀ id, id ∈ s.tombs.filter (fun t => t ≠ x) → id ∈ s.tombs := fun id h => (List.mem_filter.mp h).1
    have hg : ∀ id, id ∈ s.tombs → id ≠ x → id ∈ s.tombs.filter (fun t => t ≠ x) := fun id h hx => List.mem_filter.mpr ⟨h, by simpa using hx⟩
    split
    · have h := ih { s with tombs := s.tombs.filter (fun t => t ≠ x) }
      exact ⟨h.cache, h.entry, h.maxLayer, h.once, h.kvEntry, h.kvCount, fun id hd => h.keep id (fun hm => hd (List.mem_cons_of_mem _ hm)), h.sub,
        fun id hm => hf id (h.tombs id hm),
        fun id hm hd => h.others id (hg id hm (fun e => hd (e ▸ List.mem_cons_self))) (fun hm => hd (List.mem_cons_of_mem _ hm))⟩
    · split
      · exact ⟨rfl, rfl, rfl, rfl, rfl, rfl, fun _ _ => rfl, fun _ _ h => h, hf, fun id hm hd => hg id hm (fun e => hd (e ▸ List.mem_cons_self))⟩
      · have h := ih { s with tombs := s.tombs.filter (fun t => t ≠ x), kv := s.kv.filter (fun e => e.1 ≠ x) }
        refine ⟨h.cache, h.entry, h.maxLayer, h.once, h.kvEntry, h.kvCount, ?_, ?_, fun id hm => hf id (h.tombs id hm),
          fun id hm hd => h.others id (hg id hm (fun e => hd (e ▸ List.mem_cons_self))) (fun hm => hd (List.mem_cons_of_mem _ hm))⟩
        · intro id hd
          rw [h.keep id (fun hm => hd (List.mem_cons_of_mem _ hm))]
          show Tab.get (s.kv.filter (fun e => e.1 ≠ x)) id = s.kv.get id
          rw [tab_get_filter, if_neg (fun e : id = x => hd (e ▸ List.mem_cons_self))]
        · intro id v hv
          have := h.sub id v hv
          have h2 : Tab.get (s.kv.filter (fun e => e.1 ≠ x)) id = some v := this
          rw [tab_get_filter] at h2
          split at h2
          · cases h2
          · exact h2

theorem removeLoop_ok {E : CleanEnv V D} {dl : List Nat} {s s' : Index V} (h : removeLoop E dl s = (s', none)) :
    (∀ id ∈ dl, id ∉ s'.tombs) ∧ (∀ id ∈ dl, E.brkRemove id = false → s'.kv.get id = none) := by
  induction dl generalizing s with
  | nil => cases h; exact ⟨nofun, nofun⟩
  | cons x dl ih =>
    unfold removeLoop at h
    simp only at h
    split at h
    · rename_i hb
      have h1 := ih h
      have hr := removeLoop_removed E dl { s with tombs := s.tombs.filter (fun t => t ≠ x) }
      rw [h] at hr
      constructor
      · intro id hid
        rcases List.mem_cons.mp hid with rfl | hid
        · intro hm
          have := (List.mem_filter.mp (hr.tombs id hm)).2
          simp at this
        · exact h1.1 id hid
      · intro id hid hbr
        rcases List.mem_cons.mp hid with rfl | hid
        · rw [hb] at hbr; cases hbr
        · exact h1.2 id hid hbr
    · split at h
      · cases h
      · have h1 := ih h
        have hr := removeLoop_removed E dl { s with tombs := s.tombs.filter (fun t => t ≠ x), kv := s.kv.filter (fun e => e.1 ≠ x) }
        rw [h] at hr
        constructor
        · intro id hid
          rcases List.mem_cons.mp hid with rfl | hid
          · intro hm
            have := (List.mem_filter.mp (hr.tombs id hm)).2
            simp at this
          · exact h1.1 id hid
        · intro id hid hbr
          rcases List.mem_cons.mp hid with rfl | hid
          · cases hk : s'.kv.get id with
            | none => rfl
            | some v =>
              have := hr.sub id v hk
              have h2 : Tab.get (s.kv.filter (fun e => e.1 ≠ id)) id = some v := this
              rw [tab_get_filter, if_pos rfl] at h2
              cases h2
          · exact h1.2 id hid hbr

theorem Removed.get {dl : List Nat} {s s' : Index V} (h : Removed dl s s') {id : Nat} (hd : id ∉ dl) : s'.get id = s.get id := by
  unfold Index.get
  rw [h.cache, h.keep id hd]

theorem Removed.ids {dl : List Nat} {s s' : Index V} (h : Removed dl s s') (hi : IdsOk s) : IdsOk s' :=
  ⟨by rw [h.cache]; exact hi.cache, fun id v hv => hi.kv id v (h.sub id v hv)⟩

/-! ## the whole clean-up -/

theorem resetIndex_get (s : Index V) (id : Nat) : (resetIndex s).get id = s.get id := rfl

/-- cases of a clean-up -/
theorem cleanUp_cases (P : Params V D) (E : CleanEnv V D) (s : Index V) (order : List Nat) :
    (cleanUp P E s order).1 = s ∧ (cleanUp P E s order).2 ≠ .ok true ∨
    ∃ s1 o, reassignLoop P E order (List.range (kvSize s)) s = (s1, o) ∧
      (((cleanUp P E s order).1 = s1 ∧ (cleanUp P E s order).2 ≠ .ok true) ∨
       (o = .ok true ∧ ∃ s2 o2, removeLoop E order s1 = (s2, o2) ∧
        ((∃ e, o2 = some e ∧ (cleanUp P E s order) = (s2, .error e)) ∨
         (o2 = none ∧ cleanUp P E s order = (if s2.isEmpty then resetIndex s2 else s2, .ok true))))) := by
  unfold cleanUp
  split
  · left; exact ⟨rfl, nofun⟩
  · split
    · left; exact ⟨rfl, nofun⟩
    · split
      · left; exact ⟨rfl, nofun⟩
      · right
        split
        · rename_i he; exact ⟨_, _, he, .inl ⟨rfl, nofun⟩⟩
        · rename_i he; exact ⟨_, _, he, .inl ⟨rfl, nofun⟩⟩
        · rename_i s1 he
          refine ⟨_, _, he, ?_⟩
          split
          · exact .inl ⟨rfl, nofun⟩
          · split
            · exact .inl ⟨rfl, nofun⟩
            · split
              · rename_i s2 e hr; exact .inr ⟨rfl, s2, some e, hr, .inl ⟨e, rfl, rfl⟩⟩
              · rename_i s2 hr; exact .inr ⟨rfl, s2, none, hr, .inr ⟨rfl, rfl⟩⟩

theorem cleanUp_ids (P : Params V D) (E : CleanEnv V D) (s : Index V) (order : List Nat) (hi : IdsOk s) (ht : ∀ i ∈ order, i ∈ s.tombs) :
    IdsOk (cleanUp P E s order).1 := by
  rcases cleanUp_cases P E s order with ⟨h, _⟩ | ⟨s1, o, hr, ⟨h, _⟩ | ⟨_, s2, o2, hr2, ⟨e, _, h⟩ | ⟨_, h⟩⟩⟩
  · rw [h]; exact hi
  · rw [h]
    have := (reassignLoop_relinked P E (fun _ => False) (List.range (kvSize s)) s hi ht).1.ids hi
    rw [hr] at this; exact this
  · have := (reassignLoop_relinked P E (fun _ => False) (List.range (kvSize s)) s hi ht).1.ids hi
    rw [hr] at this
    have hrm := removeLoop_removed E order s1
    rw [hr2] at hrm
    rw [h]; exact hrm.ids this
  · have := (reassignLoop_relinked P E (fun _ => False) (List.range (kvSize s)) s hi ht).1.ids hi
    rw [hr] at this
    have hrm := removeLoop_removed E order s1
    rw [hr2] at hrm
    have h3 := hrm.ids this
    rw [h]
    split
    · exact ⟨h3.cache, h3.kv⟩
    · exact h3

/-- until it begins to remove, a clean-up leaves every mark in place; the marks of other numbers stay in any case -/
theorem cleanUp_tombs (P : Params V D) (E : CleanEnv V D) (s : Index V) (order : List Nat) (hi : IdsOk s) (ht : ∀ i ∈ order, i ∈ s.tombs) :
    ((cleanUp P E s order).2 = .ok false → (cleanUp P E s order).1.tombs = s.tombs) ∧
    (∀ id, id ∉ order → (id ∈ (cleanUp P E s order).1.tombs ↔ id ∈ s.tombs)) := by
  rcases cleanUp_cases P E s order with ⟨h, _⟩ | ⟨s1, o, hr, ⟨h, _⟩ | ⟨_, s2, o2, hr2, ⟨e, _, h⟩ | ⟨_, h⟩⟩⟩
  · rw [h]; exact ⟨fun _ => rfl, fun _ _ => Iff.rfl⟩
  · have := (reassignLoop_relinked P E (fun _ => False) (List.range (kvSize s)) s hi ht).1.same.tombs
    rw [hr] at this
    rw [h]; rw [show s1.tombs = s.tombs from this]; exact ⟨fun _ => rfl, fun _ _ => Iff.rfl⟩
  · have hts := (reassignLoop_relinked P E (fun _ => False) (List.range (kvSize s)) s hi ht).1.same.tombs
    rw [hr] at hts
    have hts : s1.tombs = s.tombs := hts
    have hrm := removeLoop_removed E order s1
    rw [hr2] at hrm
    have hrm : Removed order s1 s2 := hrm
    rw [h]
    refine ⟨nofun, fun id hid => ⟨fun hm => ?_, fun hm => ?_⟩⟩
    · rw [← hts]; exact hrm.tombs id hm
    · exact hrm.others id (by rw [hts]; exact hm) hid
  · have hts := (reassignLoop_relinked P E (fun _ => False) (List.range (kvSize s)) s hi ht).1.same.tombs
    rw [hr] at hts
    have hts : s1.tombs = s.tombs := hts
    have hrm := removeLoop_removed E order s1
    rw [hr2] at hrm
    have hrm : Removed order s1 s2 := hrm
    rw [h]
    have ht2 : (if s2.isEmpty then resetIndex s2 else s2).tombs = s2.tombs := by split <;> rfl
    refine ⟨nofun, fun id hid => ?_⟩
    simp only [ht2]
    refine ⟨fun hm => ?_, fun hm => ?_⟩
    · rw [← hts]; exact hrm.tombs id hm
    · exact hrm.others id (by rw [hts]; exact hm) hid

/-- a completed clean-up -/
theorem cleanUp_done {P : Params V D} {E : CleanEnv V D} {s s' : Index V} {order : List Nat} (hi : IdsOk s) (ht : ∀ i ∈ order, i ∈ s.tombs)
    (h : cleanUp P E s order = (s', .ok true)) :
    CleanOn order (fun n => n < kvSize s ∧ n ∉ order) s' ∧ (∀ id ∈ order, id ∉ s'.tombs) ∧
    (∀ id ∈ order, E.brkRemove id = false → s'.kv.get id = none) ∧ (∀ id, id ∉ order → (s.get id = none ↔ s'.get id = none)) := by
  rcases cleanUp_cases P E s order with ⟨_, h2⟩ | ⟨s1, o, hr, ⟨_, h2⟩ | ⟨ho, s2, o2, hr2, ⟨e, _, h2⟩ | ⟨h1, h2⟩⟩⟩
  · rw [h] at h2; exact absurd rfl h2
  · rw [h] at h2; exact absurd rfl h2
  · rw [h] at h2; cases h2
  · subst h1
    have hrl := reassignLoop_relinked P E (fun _ => False) (List.range (kvSize s)) s hi ht
    rw [hr] at hrl
    have hc := hrl.2 ho
    have hnone := hrl.1.none hi
    have hrm := removeLoop_removed E order s1
    rw [hr2] at hrm
    have hrm : Removed order s1 s2 := hrm
    have hok := removeLoop_ok hr2
    rw [h] at h2
    simp only [Prod.mk.injEq, and_true] at h2
    have hg : ∀ id, s'.get id = s2.get id := by intro id; rw [h2]; split <;> rfl
    have hk : s'.kv = s2.kv := by rw [h2]; split <;> rfl
    have htb : s'.tombs = s2.tombs := by rw [h2]; split <;> rfl
    refine ⟨?_, by rw [htb]; exact hok.1, by rw [hk]; exact hok.2, ?_⟩
    · intro id v hS hv
      rw [hg, hrm.get hS.2] at hv
      exact hc id v ⟨List.mem_range.mpr hS.1, hS.2⟩ hv
    · intro id hd
      rw [hg, hrm.get hd]
      exact hnone id

/-! ## deletion -/

theorem deleteStep_tombs (s : Index V) (id : Nat) : (deleteStep s id).tombs = s.tombs := by
  unfold deleteStep
  split
  · rfl
  · split <;> rfl

theorem deleteStep_store (s : Index V) (id : Nat) : (deleteStep s id).cache = s.cache ∧ (deleteStep s id).kv = s.kv := by
  unfold deleteStep
  split
  · exact ⟨rfl, rfl⟩
  · split <;> exact ⟨rfl, rfl⟩

theorem foldl_deleteStep (ids : List Nat) (s : Index V) :
    (ids.foldl deleteStep s).tombs = s.tombs ∧ (ids.foldl deleteStep s).cache = s.cache ∧ (ids.foldl deleteStep s).kv = s.kv := by
  induction ids generalizing s with
  | nil => exact ⟨rfl, rfl, rfl⟩
  | cons x ids ih =>
    rw [List.foldl_cons]
    obtain ⟨a, b, c⟩ := ih (deleteStep s x)
    exact ⟨a.trans (deleteStep_tombs s x), b.trans (deleteStep_store s x).1, c.trans (deleteStep_store s x).2⟩

theorem delete_spec (s : Index V) (ids : List Nat) :
    (s.delete ids).tombs = ids ++ s.tombs ∧ (s.delete ids).cache = s.cache ∧ (s.delete ids).kv = s.kv := by
  unfold delete
  exact foldl_deleteStep ids _

theorem anyDel_ids {P : Params V D} {s : Index V} (h : AnyDel P s) : IdsOk s := by
  induction h with
  | init => exact (inv_init P).ids
  | add vo sched x vec level _ ih => exact (add_keeps ih).ids
  | flush order n _ ih => exact (idsOk_crash ih (flushUpToBad_prefix P (flushWrites _ order n)).1).1
  | cut order n ws _ hp ih => exact (idsOk_crash ih hp).1
  | load _ ih => exact ⟨ih.cache, ih.kv⟩
  | unread _ ih => exact ⟨ih.cache, ih.kv⟩
  | restart _ ih => exact ⟨fun id v hv => (by cases hv), ih.kv⟩
  | delete ids _ ih =>
    obtain ⟨_, b, c⟩ := delete_spec _ ids
    exact ⟨by rw [b]; exact ih.cache, by rw [c]; exact ih.kv⟩
  | cleanUp E order _ ho ih => exact cleanUp_ids P E _ order ih (fun i hi => (ho i).mp hi)

theorem foldl_applyWrite_tombs (ws : List (Write V)) (s : Index V) : (ws.foldl applyWrite s).tombs = s.tombs := by
  induction ws generalizing s with
  | nil => rfl
  | cons w ws ih => rw [List.foldl_cons, ih]; cases w <;> rfl

end Fave.Index
