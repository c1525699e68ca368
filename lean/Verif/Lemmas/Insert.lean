import Verif.Model.Insert
import Verif.Lemmas.SearchFrame
import Verif.Lemmas.Knn
/-!
# Basic facts about the operations of an addition
-/
namespace Fave.Index
open Queue
variable {V D : Type} [Dist D]

/-! ## storage -/

theorem get_put (s : Index V) (v : Vertex V) (id : Nat) : (s.put v).get id = if id = v.id then some v else s.get id := by
  unfold get put
  simp only [Tab.get_put]
  by_cases h : id = v.id <;> simp [h]

/-- everything except the node cache is unchanged -/
structure Same (s s' : Index V) : Prop where
  kv : s'.kv = s.kv
  kvEntry : s'.kvEntry = s.kvEntry
  kvCount : s'.kvCount = s.kvCount
  entry : s'.entry = s.entry
  maxLayer : s'.maxLayer = s.maxLayer
  once : s'.once = s.once
  tombs : s'.tombs = s.tombs

theorem Same.refl (s : Index V) : Same s s := ⟨rfl, rfl, rfl, rfl, rfl, rfl, rfl⟩

theorem Same.trans {a b c : Index V} (h : Same a b) (h' : Same b c) : Same a c :=
  ⟨h'.kv.trans h.kv, h'.kvEntry.trans h.kvEntry, h'.kvCount.trans h.kvCount, h'.entry.trans h.entry,
   h'.maxLayer.trans h.maxLayer, h'.once.trans h.once, h'.tombs.trans h.tombs⟩

theorem same_put (s : Index V) (v : Vertex V) : Same s (s.put v) := ⟨rfl, rfl, rfl, rfl, rfl, rfl, rfl⟩

/-- `s'` is `s` with the node `v` stored -/
structure Upd (s s' : Index V) (v : Vertex V) : Prop where
  same : Same s s'
  get : ∀ id, s'.get id = if id = v.id then some v else s.get id

theorem upd_put (s : Index V) (v : Vertex V) : Upd s (s.put v) v := ⟨same_put s v, get_put s v⟩

theorem upd_put_put (s : Index V) (u v : Vertex V) (h : v.id = u.id) : Upd s ((s.put u).put v) v := by
  refine ⟨(same_put s u).trans (same_put _ v), ?_⟩
  intro id
  rw [get_put, get_put]
  by_cases h1 : id = v.id
  · simp [h1]
  · rw [if_neg h1, if_neg (h ▸ h1), if_neg h1]

/-- every stored node is stored under its own number -/
structure IdsOk (s : Index V) : Prop where
  cache : ∀ id v, s.cache.get id = some v → v.id = id
  kv : ∀ id v, s.kv.get id = some v → v.id = id

theorem IdsOk.get {s : Index V} (h : IdsOk s) {id : Nat} {v : Vertex V} (hg : s.get id = some v) : v.id = id := by
  unfold Index.get at hg
  split at hg
  · rename_i w hw; cases hg; exact h.cache _ _ hw
  · cases hk : s.kv.get id with
    | none => rw [hk] at hg; cases hg
    | some w => rw [hk] at hg; simp at hg; subst hg; exact h.kv _ w hk

theorem idsOk_put {s : Index V} (h : IdsOk s) (v : Vertex V) : IdsOk (s.put v) := by
  refine ⟨?_, h.kv⟩
  intro id w hw
  unfold put at hw
  simp only [Tab.get_put] at hw
  by_cases h1 : id = v.id
  · rw [if_pos h1] at hw; cases hw; exact h1.symm
  · rw [if_neg h1] at hw; exact h.cache _ _ hw

theorem keysOk (P : Params V D) (s : Index V) (q : V) (allow) : Search.KeysOk ((s.graph P).senv q allow) := by
  intro id v hv
  have hv : s.get id = some v := hv
  show id ∈ s.cache.keys ++ s.kv.keys
  unfold Index.get at hv
  rw [List.mem_append]
  split at hv
  · rename_i w hw; exact .inl (Tab.mem_keys_of_get hw)
  · right
    cases hk : s.kv.get id with
    | none => rw [hk] at hv; cases hv
    | some w => exact Tab.mem_keys_of_get hk

/-! ## vertices -/

theorem upgrade_id (v : Vertex V) (l : Nat) : (upgrade v l).id = v.id := rfl
theorem upgrade_vec (v : Vertex V) (l : Nat) : (upgrade v l).vec = v.vec := rfl
theorem upgrade_maint (v : Vertex V) (l : Nat) : (upgrade v l).maint = v.maint := rfl

theorem upgrade_conns {v : Vertex V} {l : Nat} (hc : v.conns.length = v.level + 1) (hl : v.level < l) :
    (upgrade v l).conns.length = (upgrade v l).level + 1 ∧
    ∀ k links, (upgrade v l).conns[k]? = some links → v.conns[k]? = some links ∨ (links = [] ∧ v.level < k ∧ k ≤ l) := by
  constructor
  · simp [upgrade]; omega
  · intro k links hk
    simp only [upgrade] at hk
    by_cases h : k < v.conns.length
    · rw [List.getElem?_append_left h] at hk; exact .inl hk
    · rw [List.getElem?_append_right (by omega), List.getElem?_replicate] at hk
      split at hk
      · cases hk; exact .inr ⟨rfl, by omega, by omega⟩
      · cases hk

theorem setConns_get (v : Vertex V) (l k : Nat) (links : List Nat) :
    (setConns v l links).conns[k]? = if k = l then (if l < v.conns.length then some links else none) else v.conns[k]? := by
  simp only [setConns, List.getElem?_set]
  by_cases h : k = l
  · subst h; simp
  · rw [if_neg h, if_neg (fun e => h e.symm)]

/-! ## heuristic -/

theorem heurLoop_sub {P : Params V D} {vo : Nat → Option V} {deny : Nat → Bool} {max : Nat} {ids : List Nat} (fuel : Nat)
    {closest : Array (ItemIx D)} {kept r : List (ItemIx D)} (h : heurLoop P vo deny max ids fuel closest kept = .ok r) :
    (∃ rest, (r ++ rest).Perm (kept ++ closest.toList)) ∧ (kept.length ≤ max → r.length ≤ max) := by
  induction fuel generalizing closest kept with
  | zero => cases h; exact ⟨⟨_, List.Perm.refl _⟩, id⟩
  | succ fuel ih =>
    unfold heurLoop at h
    split at h
    · cases h; exact ⟨⟨_, List.Perm.refl _⟩, id⟩
    · rename_i hm
      split at h
      · cases h; exact ⟨⟨_, List.Perm.refl _⟩, id⟩
      · rename_i cur q hp
        have hpm := pop_perm lessMinIx hp
        have hdrop : ∀ {r' : List (ItemIx D)}, (∃ rest, (r' ++ rest).Perm (kept ++ q.toList)) →
            ∃ rest, (r' ++ rest).Perm (kept ++ closest.toList) := by
          rintro r' ⟨rest, hr⟩
          refine ⟨cur :: rest, ?_⟩
          refine List.perm_middle.trans ?_
          refine (hr.cons cur).trans ?_
          exact List.perm_middle.symm.trans (hpm.symm.append_left kept)
        split at h
        · obtain ⟨h1, h2⟩ := ih h
          exact ⟨hdrop h1, h2⟩
        · split at h
          · cases h
          · simp only at h
            obtain ⟨h1, h2⟩ := ih h
            constructor
            · split at h1
              · obtain ⟨rest, hr⟩ := h1
                refine ⟨rest, hr.trans ?_⟩
                rw [List.append_assoc]
                exact hpm.symm.append_left kept
              · exact hdrop h1
            · intro hk
              apply h2
              split
              · simp; omega
              · exact hk

theorem foldl_insert_perm {α β : Type} (less : α → α → Bool) (f : β → α) (l : List β) (q : Array α) :
    (l.foldl (fun q x => insert less q (f x)) q).toList.Perm (l.map f ++ q.toList) := by
  induction l generalizing q with
  | nil => exact List.Perm.refl _
  | cons x xs ih =>
    rw [List.foldl_cons]
    refine (ih _).trans ?_
    rw [List.map_cons, List.cons_append]
    exact ((insert_perm less q (f x)).append_left _).trans List.perm_middle

/-- the heuristic only drops items, and leaves at most `max` -/
theorem selectNeighbors_sub {P : Params V D} {vo : Nat → Option V} {deny : Nat → Bool} {max : Nat} {input r : Array (Item D)}
    (h : selectNeighbors P vo deny max input = .ok r) :
    (∃ rest, (r.toList ++ rest).Perm input.toList) ∧ r.size ≤ max := by
  unfold selectNeighbors at h
  split at h
  · rename_i hlt
    cases h; exact ⟨⟨[], by simp⟩, by omega⟩
  · simp only at h
    split at h
    · cases h
    · split at h
      · cases h
      · rename_i kept hk
        cases h
        obtain ⟨⟨rest, h1⟩, h2⟩ := heurLoop_sub _ hk
        have hp1 := foldl_insert_perm lessMax (fun x : ItemIx D => (⟨x.id, x.dist⟩ : Item D)) kept #[]
        have hp2 := foldl_insert_perm lessMinIx (fun x : Item D × Nat => (⟨x.1.id, x.2, x.1.dist⟩ : ItemIx D))
          (drain lessMax input).zipIdx #[]
        simp only [List.append_nil, List.nil_append] at hp1 hp2 h1
        constructor
        · refine ⟨rest.map (fun x => ⟨x.id, x.dist⟩), ?_⟩
          refine (hp1.append_right _).trans ?_
          rw [← List.map_append]
          refine (h1.map _).trans ?_
          refine (hp2.map _).trans ?_
          have : (List.map (fun x : ItemIx D => (⟨x.id, x.dist⟩ : Item D))
              (List.map (fun x : Item D × Nat => (⟨x.1.id, x.2, x.1.dist⟩ : ItemIx D)) (drain lessMax input).zipIdx)) =
              drain lessMax input := by
            rw [List.map_map]
            have : ((fun x : ItemIx D => (⟨x.id, x.dist⟩ : Item D)) ∘ fun x : Item D × Nat => (⟨x.1.id, x.2, x.1.dist⟩ : ItemIx D)) = Prod.fst := rfl
            rw [this, List.zipIdx_map_fst]
          rw [this]
          exact drain_perm _ _
        · have := hp1.length_eq
          simp only [Array.length_toList, List.length_map] at this
          rw [this]
          exact h2 (by simp)

/-- the links written by the heuristic: some of the candidates, in some order, at most `max` -/
theorem selected_ids {P : Params V D} {vo : Nat → Option V} {deny : Nat → Bool} {max : Nat} {input r : Array (Item D)}
    (h : selectNeighbors P vo deny max input = .ok r) :
    ((drain lessMax r).map Item.id).length ≤ max ∧
    ((input.toList.map Item.id).Nodup → ((drain lessMax r).map Item.id).Nodup) ∧
    (∀ i ∈ (drain lessMax r).map Item.id, i ∈ input.toList.map Item.id) := by
  obtain ⟨⟨rest, h1⟩, h2⟩ := selectNeighbors_sub h
  have hp := drain_perm lessMax r
  refine ⟨?_, ?_, ?_⟩
  · rw [List.length_map, hp.length_eq]; simpa using h2
  · intro hn
    have := (h1.map Item.id).nodup_iff.mpr hn
    rw [List.map_append] at this
    exact (hp.map Item.id).nodup_iff.mpr (List.nodup_append.mp this).1
  · intro i hi
    have := (hp.map Item.id).mem_iff.mp hi
    refine (h1.map Item.id).mem_iff.mp ?_
    rw [List.map_append, List.mem_append]
    exact .inl this

theorem overfull_perm {P : Params V D} {vo : Nat → Nat → Option V} {nb n : Nat} {cs : List Nat} {q r : Array (Item D)}
    (h : overfull P vo nb n cs q = .ok r) : (r.toList.map Item.id).Perm (cs ++ q.toList.map Item.id) := by
  induction cs generalizing n q with
  | nil => cases h; exact List.Perm.refl _
  | cons c cs ih =>
    unfold overfull at h
    split at h
    · cases h
    · refine (ih h).trans ?_
      refine (((insert_perm lessMax q _).map Item.id).append_left cs).trans ?_
      exact List.perm_middle

/-! ## connecting a neighbour -/

/-- the node a connection starts from: not committed, raised to the level -/
def raised (v : Vertex V) (level : Nat) : Vertex V :=
  if level > v.level then upgrade { v with committed := false } level else { v with committed := false }

theorem raised_id (v : Vertex V) (l : Nat) : (raised v l).id = v.id := by unfold raised; split <;> rfl
theorem raised_vec (v : Vertex V) (l : Nat) : (raised v l).vec = v.vec := by unfold raised; split <;> rfl
theorem raised_maint (v : Vertex V) (l : Nat) : (raised v l).maint = v.maint := by unfold raised; split <;> rfl
theorem raised_committed (v : Vertex V) (l : Nat) : (raised v l).committed = false := by unfold raised; split <;> rfl
theorem raised_level (v : Vertex V) (level : Nat) : v.level ≤ (raised v level).level ∧ level ≤ (raised v level).level ∧
    ((raised v level).level = v.level ∨ (raised v level).level = level) := by
  unfold raised
  by_cases h : level > v.level
  · rw [if_pos h]; exact ⟨by show v.level ≤ level; omega, Nat.le_refl _, .inr rfl⟩
  · rw [if_neg h]; exact ⟨Nat.le_refl _, by show level ≤ v.level; omega, .inl rfl⟩
theorem raised_conns {v : Vertex V} {l : Nat} (hc : v.conns.length = v.level + 1) :
    (raised v l).conns.length = (raised v l).level + 1 ∧
    ∀ (k : Nat) (links : List Nat), (raised v l).conns[k]? = some links → v.conns[k]? = some links ∨ links = [] := by
  unfold raised
  split
  · rename_i h
    obtain ⟨h1, h2⟩ := upgrade_conns (v := { v with committed := false }) (l := l) hc h
    exact ⟨h1, fun k links hk => (h2 k links hk).imp (fun h => h) (fun h => h.1)⟩
  · exact ⟨hc, fun k links hk => .inl hk⟩

/-- What connecting one neighbour can do. -/
theorem connectNeighbor_cases (P : Params V D) (vo : VecOracle V) (x level : Nat) (s : Index V) (nb : Nat) :
    (connectNeighbor P vo x level s nb = (s, none) ∧ (s.get nb = none ∨ nb = x ∨ s.tombs.contains nb = true)) ∨
    ∃ v, s.get nb = some v ∧ nb ≠ x ∧ s.tombs.contains nb = false ∧
      ((∃ e, (connectNeighbor P vo x level s nb).2 = some e ∧ Upd s (connectNeighbor P vo x level s nb).1 (raised v level)) ∨
       (∃ cur links, (connectNeighbor P vo x level s nb).2 = none ∧ (raised v level).conns[level]? = some cur ∧
          Upd s (connectNeighbor P vo x level s nb).1 (setConns (raised v level) level links) ∧
          ((cur.length < maxConns P level ∧ links = cur ++ [x]) ∨
           (maxConns P level ≤ cur.length ∧ links.length ≤ maxConns P level ∧ ((x :: cur).Nodup → links.Nodup) ∧
              (∀ i ∈ links, i ∈ x :: cur))))) := by
  cases hg : s.get nb with
  | none => left; simp [connectNeighbor, hg]
  | some v =>
    by_cases hx : nb = x
    · left; simp only [connectNeighbor, hg, if_pos hx]; simp [hx]
    · by_cases ht : s.tombs.contains nb = true
      · left; simp only [connectNeighbor, hg, if_neg hx, ht, if_true]; simp
      · right
        have ht' : s.tombs.contains nb = false := by simpa using ht
        refine ⟨v, rfl, hx, ht', ?_⟩
        have hr : (if level > v.level then upgrade { v with committed := false } level else { v with committed := false }) =
            raised v level := rfl
        simp only [connectNeighbor, hg, if_neg hx, ht', Bool.false_eq_true, if_false]
        simp only [hr]
        cases hc : (raised v level).conns[level]? with
        | none => left; exact ⟨.panic, rfl, upd_put s _⟩
        | some cur =>
          simp only
          by_cases hl : cur.length < maxConns P level
          · right
            refine ⟨cur, cur ++ [x], ?_, rfl, ?_, .inl ⟨hl, rfl⟩⟩
            · rw [if_pos hl]
            · rw [if_pos hl]; exact upd_put_put s _ _ rfl
          · rw [if_neg hl]
            cases hd : distNodes P (vo level (some nb) 0) x nb with
            | error e => left; exact ⟨e, rfl, upd_put s _⟩
            | ok d =>
              simp only
              cases ho : overfull P (vo level (some nb)) nb 1 cur (insert lessMax #[] ⟨x, d⟩) with
              | error e => left; exact ⟨e, rfl, upd_put s _⟩
              | ok cands =>
                simp only
                cases hs : selectNeighbors P (vo level (some nb) (cur.length + 1)) (fun _ => false) (maxConns P level) cands with
                | error e => left; exact ⟨e, rfl, upd_put s _⟩
                | ok kept =>
                  right
                  have hp := overfull_perm ho
                  have hq : (insert lessMax #[] (⟨x, d⟩ : Item D)).toList.map Item.id = [x] := by
                    have := (insert_perm lessMax #[] (⟨x, d⟩ : Item D)).map Item.id
                    simp only [List.map_cons, List.map_nil] at this
                    exact List.perm_singleton.mp this
                  rw [hq] at hp
                  have hp' : (cands.toList.map Item.id).Perm (x :: cur) := hp.trans (List.perm_append_singleton x cur)
                  obtain ⟨a, b, c⟩ := selected_ids hs
                  refine ⟨cur, _, rfl, rfl, upd_put_put s _ _ rfl, .inr ⟨by omega, a, ?_, ?_⟩⟩
                  · intro hn; exact b (hp'.nodup_iff.mpr hn)
                  · intro i hi; exact hp'.mem_iff.mp (c i hi)

/-! ## frame of an addition (every outcome) -/

/-- a cached node not marked dirty is what the key-value table holds -/
def Synced (s : Index V) : Prop := ∀ id v, s.cache.get id = some v → v.committed = true → s.kv.get id = some (Search.core v)

/-- the node `x` is dirty if it is there -/
def Dirty (x : Nat) (s : Index V) : Prop := ∀ v, s.get x = some v → v.committed = false

theorem synced_put {s : Index V} (h : Synced s) {v : Vertex V} (hv : v.committed = false) : Synced (s.put v) := by
  intro id w hw hc
  unfold put at hw
  simp only [Tab.get_put] at hw
  by_cases h1 : id = v.id
  · rw [if_pos h1] at hw; cases hw; rw [hv] at hc; cases hc
  · rw [if_neg h1] at hw; exact h id w hw hc

theorem dirty_put {x : Nat} {s : Index V} (h : Dirty x s) {v : Vertex V} (hv : v.committed = false) : Dirty x (s.put v) := by
  intro w hw
  rw [get_put] at hw
  by_cases h1 : x = v.id
  · rw [if_pos h1] at hw; cases hw; exact hv
  · rw [if_neg h1] at hw; exact h w hw

/-- `s'` differs from `s` only in the node `x` and in links/levels/dirty flags of other nodes -/
structure Ext (x : Nat) (s s' : Index V) : Prop where
  same : Same s s'
  ids : IdsOk s → IdsOk s'
  old : IdsOk s → ∀ id v, id ≠ x → s.get id = some v → ∃ v', s'.get id = some v' ∧ v'.id = v.id ∧ v'.vec = v.vec ∧ v'.maint = v.maint ∧ v.level ≤ v'.level
  none : IdsOk s → ∀ id, id ≠ x → s.get id = none → s'.get id = none
  self : IdsOk s → ∀ v, s.get x = some v → ∃ v', s'.get x = some v' ∧ v'.vec = v.vec
  sync : Synced s → Dirty x s → Synced s' ∧ Dirty x s'

theorem Ext.refl (x : Nat) (s : Index V) : Ext x s s :=
  ⟨Same.refl s, id, fun _ _ v _ h => ⟨v, h, rfl, rfl, rfl, Nat.le_refl _⟩, fun _ _ _ h => h, fun _ v h => ⟨v, h, rfl⟩, fun a b => ⟨a, b⟩⟩

theorem Ext.trans {x : Nat} {a b c : Index V} (h : Ext x a b) (h' : Ext x b c) : Ext x a c := by
  refine ⟨h.same.trans h'.same, fun hi => h'.ids (h.ids hi), ?_, ?_, ?_, fun a b => h'.sync (h.sync a b).1 (h.sync a b).2⟩
  · intro hi id v hx hg
    obtain ⟨v1, g1, a1, b1, m1, c1⟩ := h.old hi id v hx hg
    obtain ⟨v2, g2, a2, b2, m2, c2⟩ := h'.old (h.ids hi) id v1 hx g1
    exact ⟨v2, g2, a2.trans a1, b2.trans b1, m2.trans m1, Nat.le_trans c1 c2⟩
  · intro hi id hx hg; exact h'.none (h.ids hi) id hx (h.none hi id hx hg)
  · intro hi v hg
    obtain ⟨v1, g1, a1⟩ := h.self hi v hg
    obtain ⟨v2, g2, a2⟩ := h'.self (h.ids hi) v1 g1
    exact ⟨v2, g2, a2.trans a1⟩

theorem ext_put_old {x nb : Nat} {s : Index V} {v u : Vertex V} (hg : s.get nb = some v) (h1 : u.id = v.id) (h2 : u.vec = v.vec)
    (hm : u.maint = v.maint) (h3 : v.level ≤ u.level) (hc : Dirty x s → u.committed = false) :
    Ext x s (s.put u) := by
  refine ⟨same_put s u, fun h => idsOk_put h u, ?_, ?_, ?_, fun a b => ⟨synced_put a (hc b), dirty_put b (hc b)⟩⟩
  · intro hi id w hx hgw
    rw [get_put]
    have hid : u.id = nb := h1.trans (hi.get hg)
    by_cases h : id = u.id
    · rw [if_pos h]
      have : w = v := by rw [h, hid, hg] at hgw; cases hgw; rfl
      subst this
      exact ⟨u, rfl, h1, h2, hm, h3⟩
    · rw [if_neg h]; exact ⟨w, hgw, rfl, rfl, rfl, Nat.le_refl _⟩
  · intro hi id hx hgw
    rw [get_put]
    have hid : u.id = nb := h1.trans (hi.get hg)
    rw [if_neg]
    · exact hgw
    · intro h; rw [h, hid, hg] at hgw; cases hgw
  · intro hi w hgw
    have hid : u.id = nb := h1.trans (hi.get hg)
    rw [get_put]
    by_cases h : x = u.id
    · rw [if_pos h]
      have : w = v := by rw [h, hid, hg] at hgw; cases hgw; rfl
      subst this
      exact ⟨u, rfl, h2⟩
    · rw [if_neg h]; exact ⟨w, hgw, rfl⟩

theorem connectNeighbor_ext (P : Params V D) (vo : VecOracle V) (x level : Nat) (s : Index V) (nb : Nat) :
    Ext x s (connectNeighbor P vo x level s nb).1 := by
  cases hg : s.get nb with
  | none => simp only [connectNeighbor, hg]; exact Ext.refl x s
  | some v =>
    by_cases hx : nb = x
    · simp only [connectNeighbor, hg, if_pos hx]; exact Ext.refl x s
    · by_cases ht : s.tombs.contains nb = true
      · simp only [connectNeighbor, hg, if_neg hx, ht, if_true]; exact Ext.refl x s
      · have ht' : s.tombs.contains nb = false := by simpa using ht
        have hr : (if level > v.level then upgrade { v with committed := false } level else { v with committed := false }) =
            raised v level := rfl
        have e1 : Ext x s (s.put (raised v level)) :=
          ext_put_old hg (raised_id v level) (raised_vec v level) (raised_maint v level) (raised_level v level).1 (fun _ => raised_committed v level)
        have e2 : ∀ links, Ext x s ((s.put (raised v level)).put (setConns (raised v level) level links)) := by
          intro links
          refine e1.trans (ext_put_old (nb := (raised v level).id) (v := raised v level) ?_ rfl rfl rfl (Nat.le_refl _) (fun _ => raised_committed v level))
          rw [get_put, if_pos rfl]
        simp only [connectNeighbor, hg, if_neg hx, ht', Bool.false_eq_true, if_false]
        simp only [hr]
        split
        · exact e1
        · split
          · exact e2 _
          · split
            · exact e1
            · split
              · exact e1
              · split
                · exact e1
                · exact e2 _

theorem connectAll_ext (P : Params V D) (vo : VecOracle V) (x level : Nat) (s : Index V) (nbs : List Nat) :
    Ext x s (connectAll P vo x level s nbs).1 := by
  induction nbs generalizing s with
  | nil => exact Ext.refl x s
  | cons nb nbs ih =>
    unfold connectAll
    have h := connectNeighbor_ext P vo x level s nb
    split
    · rename_i s1 e he; rw [he] at h; exact h
    · rename_i s1 he; rw [he] at h; exact h.trans (ih s1)

theorem doAtLevel_ext (P : Params V D) (vo : VecOracle V) (sched : Graph.Scheds D) (q : V) (x : Nat) (s : Index V) (ep level : Nat)
    (hi : IdsOk s) : Ext x s (doAtLevel P vo sched q x s ep level).1 := by
  unfold doAtLevel
  split
  · exact Ext.refl x s
  · split
    · exact Ext.refl x s
    · split
      · exact Ext.refl x s
      · rename_i kept _
        simp only
        split
        · exact Ext.refl x s
        · rename_i v hv
          split
          · exact Ext.refl x s
          · have h0 := fun links => ext_put_old (x := x) (nb := x) (u := setConns v level links) hv rfl rfl rfl (Nat.le_refl _) (fun hd => hd v hv)
            replace h0 := h0 ((drain lessMax kept).map Item.id)
            have h := connectAll_ext P vo x level (s.put (setConns v level ((drain lessMax kept).map Item.id)))
              ((drain lessMax kept).map Item.id)
            split
            · rename_i he; rw [he] at h; exact h0.trans h
            · rename_i he; rw [he] at h
              split
              · exact h0.trans h
              · exact h0.trans h

theorem doLevels_ext (P : Params V D) (vo : VecOracle V) (sched : Graph.Scheds D) (q : V) (x : Nat) (n : Nat) (s : Index V) (ep : Nat)
    (hi : IdsOk s) : Ext x s (doLevels P vo sched q x n s ep).1 := by
  induction n generalizing s ep with
  | zero => exact Ext.refl x s
  | succ level ih =>
    unfold doLevels
    have h := doAtLevel_ext P vo sched q x s ep level hi
    split
    · rename_i he; rw [he] at h; exact h
    · rename_i s1 ep1 he; rw [he] at h; exact h.trans (ih s1 ep1 (h.ids hi))

end Fave.Index
