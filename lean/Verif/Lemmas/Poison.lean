import Verif.Spec.Poison
import Verif.Lemmas.History
/-!
# Vertices that cannot be written
-/
namespace Fave.Index
open Search Spec
variable {V D : Type} [Dist D]

theorem get_of_cache {s : Index V} {id : Nat} {v : Vertex V} (h : s.cache.get id = some v) : s.get id = some v := by
  unfold get; rw [h]

theorem Fed.any {P : Params V D} {good : V → Prop} {s : Index V} (h : Fed P good s) : Any P s := by
  induction h with
  | init => exact .init
  | add vo sched x vec level _ _ ih => exact ih.add vo sched x vec level
  | flush order n _ ih => exact ih.flush order n
  | cut order n ws _ hp ih => exact ih.cut order n ws (hp.trans (flushUpToBad_prefix P _).1)
  | load _ ih => exact ih.load
  | unread _ ih => exact ih.unread
  | restart _ ih => exact ih.restart

theorem Fed.mono {P : Params V D} {good good' : V → Prop} (hg : ∀ v, good v → good' v) {s : Index V} (h : Fed P good s) : Fed P good' s := by
  induction h with
  | init => exact .init
  | add vo sched x vec level _ hv ih => exact ih.add vo sched x vec level (hg _ hv)
  | flush order n _ ih => exact ih.flush order n
  | cut order n ws _ hp ih => exact ih.cut order n ws hp
  | load _ ih => exact ih.load
  | unread _ ih => exact ih.unread
  | restart _ ih => exact ih.restart

/-- only marshallable vertices are written -/
theorem attempted_ok (P : Params V D) (ws : List (Write V)) : ∀ v, .node v ∈ (flushUpToBad P ws).1 → P.jsonOk v.vec = true := by
  induction ws with
  | nil => intro v h; cases h
  | cons w ws ih =>
    intro v h
    cases w with
    | node u =>
      unfold flushUpToBad at h
      split at h
      · rename_i hu
        rcases List.mem_cons.1 h with h | h
        · cases h; exact hu
        · exact ih v h
      · cases h
    | entry e => unfold flushUpToBad at h; rcases List.mem_cons.1 h with h | h; cases h; exact ih v h
    | count e => unfold flushUpToBad at h; rcases List.mem_cons.1 h with h | h; cases h; exact ih v h

/-- a flush without unmarshallable vertices reaches its end -/
theorem attempted_all (P : Params V D) (ws : List (Write V)) (h : ∀ v, .node v ∈ ws → P.jsonOk v.vec = true) : flushUpToBad P ws = (ws, none) := by
  induction ws with
  | nil => rfl
  | cons w ws ih =>
    have ih := ih fun v hv => h v (List.mem_cons_of_mem _ hv)
    cases w with
    | node u => unfold flushUpToBad; rw [if_pos (h u (by simp)), ih]
    | entry e => unfold flushUpToBad; rw [ih]
    | count e => unfold flushUpToBad; rw [ih]

/-- a flush with an unmarshallable vertex fails before the entry point and the count -/
theorem attempted_bad (P : Params V D) (vs : List (Vertex V)) (tail : List (Write V)) (v : Vertex V) (hv : v ∈ vs) (hb : P.jsonOk v.vec = false) :
    (flushUpToBad P (vs.map .node ++ tail)).2 = some .error ∧ ∀ w ∈ (flushUpToBad P (vs.map .node ++ tail)).1, ∃ u, w = .node u := by
  induction vs with
  | nil => cases hv
  | cons u vs ih =>
    rw [List.map_cons, List.cons_append]
    unfold flushUpToBad
    split
    · rename_i hu
      rcases List.mem_cons.1 hv with rfl | hv
      · rw [hb] at hu; cases hu
      · obtain ⟨h1, h2⟩ := ih hv
        refine ⟨h1, ?_⟩
        intro w hw
        rcases List.mem_cons.1 hw with rfl | hw
        · exact ⟨u, rfl⟩
        · exact h2 w hw
    · exact ⟨rfl, fun w hw => by cases hw⟩

theorem writes_prefix_kv {ws : List (Write V)} (p : Vertex V → Prop) (hc : ∀ v b, p v → p { v with committed := b })
    (hw : ∀ v, .node v ∈ ws → p v) (s : Index V) (hs : ∀ id v, s.kv.get id = some v → p v) :
    ∀ id v, (ws.foldl applyWrite s).kv.get id = some v → p v := by
  induction ws generalizing s with
  | nil => exact hs
  | cons w ws ih =>
    rw [List.foldl_cons]
    refine ih (fun v hv => hw v (List.mem_cons_of_mem _ hv)) _ ?_
    cases w with
    | node u =>
      intro id v hv
      simp only [applyWrite, Tab.get_put] at hv
      split at hv
      · cases hv; exact hc u false (hw u (by simp))
      · exact hs id v hv
    | entry e => exact hs
    | count e => exact hs

/-- whatever was added, the stored vertices can be marshalled -/
theorem fed_kv {P : Params V D} {good : V → Prop} {s : Index V} (h : Fed P good s) : ∀ id v, s.kv.get id = some v → P.jsonOk v.vec = true := by
  induction h with
  | init => intro id v h; cases h
  | add vo sched x vec level hf _ ih => rw [(add_keeps (any_inv hf.any).1).kv]; exact ih
  | flush order n _ ih => exact writes_prefix_kv (fun v => P.jsonOk v.vec = true) (fun _ _ h => h) (attempted_ok P _) _ ih
  | cut order n ws _ hp ih =>
    exact writes_prefix_kv (fun v => P.jsonOk v.vec = true) (fun _ _ h => h) (fun v hv => attempted_ok P _ v (hp.subset hv)) _ ih
  | load _ ih => exact ih
  | unread _ ih => exact ih
  | restart _ ih => exact ih

/-- the vertex of an addition has the normalised vector, if there is one -/
theorem add_own {P : Params V D} {vo : VecOracle V} {sched : Graph.Scheds D} {s : Index V} {x : Nat} {vec : V} {level : Nat} (hi : IdsOk s) :
    ∀ v, (add P vo sched s x vec level).1.get x = some v → s.get x = some v ∨ v.vec = P.norm vec := by
  unfold add
  split
  · exact fun v h => .inl h
  · unfold insertNode
    split
    · unfold insertInitial
      intro v hv
      right
      simp only at hv
      rw [get_put, if_pos rfl] at hv
      cases hv; rfl
    · simp only
      split
      · exact fun v h => .inl h
      · have hi0 : IdsOk (({ s with once := true } : Index V).put (newNode x (P.norm vec) level)) := idsOk_put (s := { s with once := true }) ⟨hi.cache, hi.kv⟩ _
        have hg0 : (({ s with once := true } : Index V).put (newNode x (P.norm vec) level)).get x = some (newNode x (P.norm vec) level) := by
          rw [get_put, if_pos (show x = (newNode x (P.norm vec) level).id from rfl)]
        intro v hv
        right
        unfold connectNew at hv
        split at hv
        · rw [hg0] at hv; cases hv; rfl
        · rename_i ep _
          have hx := doLevels_ext P vo sched (P.norm vec) x (Nat.min level (({ s with once := true } : Index V).put (newNode x (P.norm vec) level)).maxLayer + 1) _ ep hi0
          split at hv
          · rename_i he
            rw [he] at hx
            obtain ⟨v', h1, h2⟩ := hx.self hi0 _ hg0
            rw [hv] at h1
            cases h1; exact h2
          · rename_i s1 he
            rw [he] at hx
            obtain ⟨v', h1, h2⟩ := hx.self hi0 _ hg0
            have h1 : s1.get x = some v' := h1
            split at hv
            · rename_i h3
              rw [h3] at h1; cases h1
            · rename_i w h3
              have hw : v' = w := by rw [h3] at h1; cases h1; rfl
              subst hw
              have hid : v'.id = x := (hx.ids hi0).get h3
              have key : ∀ t : Index V, t.cache = (s1.put { v' with maint := false }).cache → t.kv = (s1.put { v' with maint := false }).kv →
                  t.get x = some v → v.vec = P.norm vec := by
                intro t e1 e2 ht
                have : t.get x = (s1.put { v' with maint := false }).get x := by unfold get; rw [e1, e2]
                rw [this, get_put, if_pos (show x = v'.id from hid.symm)] at ht
                cases ht; exact h2
              simp only at hv
              split at hv
              · exact key _ rfl rfl hv
              · exact key _ rfl rfl hv

/-- the vectors of all vertices can be marshalled if this is so of all normalised vectors added -/
theorem fed_get {P : Params V D} {s : Index V} (h : Fed P (fun v => P.jsonOk (P.norm v) = true) s) :
    ∀ id v, s.get id = some v → P.jsonOk v.vec = true := by
  induction h with
  | init => intro id v h; cases h
  | @add s vo sched x vec level hf hv ih =>
    have hk := add_keeps (P := P) (vo := vo) (sched := sched) (x := x) (vec := vec) (level := level) (any_inv hf.any).1
    intro id v hg
    by_cases hx : id = x
    · subst hx
      rcases add_own (any_inv hf.any).1 v hg with h1 | h1
      · exact ih _ v h1
      · rw [h1]; exact hv
    · cases h0 : s.get id with
      | none => rw [hk.none id hx h0] at hg; cases hg
      | some u =>
        obtain ⟨v', h1, _, h2, _⟩ := hk.old id u hx h0
        rw [h1] at hg
        cases hg
        rw [h2]; exact ih id u h0
  | @flush s order n hf ih =>
    exact flushed hf.any (flushUpToBad_prefix P (s.flushWrites order n)).1 ih
  | @cut s order n ws hf hp ih =>
    exact flushed hf.any (hp.trans (flushUpToBad_prefix P (s.flushWrites order n)).1) ih
  | load _ ih => exact ih
  | unread _ ih => exact ih
  | @restart s hf ih =>
    intro id v hg
    rw [reopen_get] at hg
    cases h0 : s.kv.get id with
    | none => rw [h0] at hg; cases hg
    | some u => rw [h0] at hg; cases hg; exact fed_kv hf id u h0
where
  flushed {P : Params V D} {s : Index V} {order : List Nat} {n : Nat} {ws : List (Write V)} (ha : Any P s) (hp : ws <+: s.flushWrites order n)
      (ih : ∀ id v, s.get id = some v → P.jsonOk v.vec = true) : ∀ id v, (ws.foldl applyWrite s).get id = some v → P.jsonOk v.vec = true := by
    obtain ⟨s1, vs, hvs, hw, h⟩ := crash_state (any_inv ha).1 hp
    have key : ∀ id v, s1.get id = some v → P.jsonOk v.vec = true := by
      intro id v hg
      have hg' : (s1.cache.get id).map core = (s.cache.get id).map core := hw.cache id
      unfold get at hg
      cases h1 : s1.cache.get id with
      | some u =>
        rw [h1] at hg hg'
        cases hg
        cases h2 : s.cache.get id with
        | none => rw [h2] at hg'; cases hg'
        | some u =>
          rw [h2] at hg'
          simp only [Option.map_some, Option.some.injEq] at hg'
          have : v.vec = u.vec := show (core v).vec = (core u).vec by rw [hg']
          rw [this]; exact ih id u (get_of_cache h2)
      | none =>
        rw [h1] at hg hg'
        cases h2 : s.cache.get id with
        | some u => rw [h2] at hg'; cases hg'
        | none =>
          simp only at hg
          rw [hw.kv id, h2] at hg
          split at hg
          · cases hg
          · exact ih id v (by unfold get; rw [h2]; exact hg)
    rcases h with ⟨h, _⟩ | ⟨_, h | h⟩ <;> rw [h] <;> exact key

theorem dirty_of_mem {s : Index V} {order : List Nat} {v : Vertex V} {x : Nat} (hx : x ∈ order) (hg : s.cache.get x = some v) (hc : v.committed = false) :
    v ∈ s.dirty order := by
  unfold dirty
  exact List.mem_filterMap.2 ⟨x, hx, by rw [hg]; simp [hc]⟩

/-- node writes leave entry point and count, and a vertex that is not written -/
theorem node_writes (ws : List (Write V)) (x : Nat) (hw : ∀ w ∈ ws, ∃ u, w = Write.node u ∧ u.id ≠ x) (s : Index V) :
    (ws.foldl applyWrite s).kvEntry = s.kvEntry ∧ (ws.foldl applyWrite s).kvCount = s.kvCount ∧ (ws.foldl applyWrite s).cache.get x = s.cache.get x := by
  induction ws generalizing s with
  | nil => exact ⟨rfl, rfl, rfl⟩
  | cons w ws ih =>
    rw [List.foldl_cons]
    obtain ⟨u, rfl, hu⟩ := hw w (by simp)
    obtain ⟨h1, h2, h3⟩ := ih (fun w hm => hw w (List.mem_cons_of_mem _ hm)) (applyWrite s (.node u))
    refine ⟨h1, h2, ?_⟩
    rw [h3]
    simp only [applyWrite, Tab.get_put]
    exact if_neg (Ne.symm hu)

theorem poison_writes {P : Params V D} {s : Index V} {x : Nat} (hi : IdsOk s) (hp : Poisoned P x s) {order : List Nat} {n : Nat} (hx : x ∈ order)
    {ws : List (Write V)} (hw : ws <+: (flushUpToBad P (s.flushWrites order n)).1) :
    Poisoned P x (ws.foldl applyWrite s) ∧ (ws.foldl applyWrite s).kvEntry = s.kvEntry ∧ (ws.foldl applyWrite s).kvCount = s.kvCount := by
  obtain ⟨v, h1, h2, h3⟩ := hp
  obtain ⟨_, hn⟩ := attempted_bad P (s.dirty order) [.entry s.entry, .count n] v (dirty_of_mem hx h1 h2) h3
  obtain ⟨k1, k2, k3⟩ := node_writes ws x (by
    intro w hm
    obtain ⟨u, rfl⟩ := hn w (hw.subset hm)
    refine ⟨u, rfl, ?_⟩
    rintro rfl
    have hok := attempted_ok P _ u (hw.subset hm)
    have hd : u ∈ s.dirty order := by
      have := (flushUpToBad_prefix P (s.flushWrites order n)).1.subset (hw.subset hm)
      unfold flushWrites at this
      rcases List.mem_append.1 this with h | h
      · obtain ⟨u', h, he⟩ := List.mem_map.1 h
        cases he; exact h
      · simp at h
    unfold dirty at hd
    obtain ⟨id, _, hb⟩ := List.mem_filterMap.1 hd
    cases hc : s.cache.get id with
    | none => rw [hc] at hb; cases hb
    | some u' =>
      rw [hc] at hb
      simp only [Option.bind_some] at hb
      split at hb
      · cases hb
      · cases hb
        have := hi.cache id _ hc
        rw [this, hc] at h1
        cases h1
        rw [h3] at hok; cases hok) s
  exact ⟨⟨v, by rw [k3]; exact h1, h2, h3⟩, k1, k2⟩

theorem poison_flush {P : Params V D} {s : Index V} {x : Nat} (hp : Poisoned P x s) {order : List Nat} {n : Nat} (hx : x ∈ order) :
    (flush P s order n).2 = some .error := by
  obtain ⟨v, h1, h2, h3⟩ := hp
  exact (attempted_bad P (s.dirty order) [.entry s.entry, .count n] v (dirty_of_mem hx h1 h2) h3).1

theorem poison_add {P : Params V D} {good : V → Prop} {s : Index V} {x y : Nat} (hf : Fed P good s) (hp : Poisoned P x s) (hy : y ≠ x)
    {vo : VecOracle V} {sched : Graph.Scheds D} {vec : V} {level : Nat} : Poisoned P x (add P vo sched s y vec level).1 := by
  obtain ⟨v, h1, h2, h3⟩ := hp
  have hk := add_keeps (P := P) (vo := vo) (sched := sched) (x := y) (vec := vec) (level := level) (any_inv hf.any).1
  obtain ⟨v', g1, _, g2, _⟩ := hk.old x v (Ne.symm hy) (get_of_cache h1)
  have hbad : P.jsonOk v'.vec = false := by rw [g2]; exact h3
  unfold get at g1
  cases hc : (add P vo sched s y vec level).1.cache.get x with
  | none =>
    rw [hc] at g1
    simp only at g1
    rw [hk.kv] at g1
    cases h0 : s.kv.get x with
    | none => rw [h0] at g1; cases g1
    | some u =>
      rw [h0] at g1
      cases g1
      have := fed_kv hf x u h0
      rw [show P.jsonOk u.vec = false from hbad] at this; cases this
  | some u =>
    rw [hc] at g1
    cases g1
    refine ⟨v', hc, ?_, hbad⟩
    cases hcm : v'.committed with
    | false => rfl
    | true =>
      have hs := hk.synced (any_inv hf.any).2 x v' hc hcm
      rw [hk.kv] at hs
      have := fed_kv hf x _ hs
      rw [show (core v').vec = v'.vec from rfl] at this
      rw [this] at hbad; cases hbad

theorem Without.keeps {P : Params V D} {x : Nat} {s t : Index V} (hf : Fed P (fun _ => True) s) (hp : Poisoned P x s) (h : Without P x s t) :
    Fed P (fun _ => True) t ∧ Poisoned P x t ∧ t.kvEntry = s.kvEntry ∧ t.kvCount = s.kvCount := by
  induction h with
  | refl => exact ⟨hf, hp, rfl, rfl⟩
  | add vo sched y vec level _ hy ih =>
    obtain ⟨h1, h2, h3, h4⟩ := ih
    have hk := add_keeps (P := P) (vo := vo) (sched := sched) (x := y) (vec := vec) (level := level) (any_inv h1.any).1
    exact ⟨h1.add _ _ _ _ _ trivial, poison_add h1 h2 hy, hk.kvEntry.trans h3, hk.kvCount.trans h4⟩
  | flush order n _ hx ih =>
    obtain ⟨h1, h2, h3, h4⟩ := ih
    obtain ⟨k1, k2, k3⟩ := poison_writes (any_inv h1.any).1 h2 hx (n := n) (List.prefix_refl _)
    exact ⟨h1.flush _ _, k1, k2.trans h3, k3.trans h4⟩
  | cut order n ws _ hx hw ih =>
    obtain ⟨h1, h2, h3, h4⟩ := ih
    obtain ⟨k1, k2, k3⟩ := poison_writes (any_inv h1.any).1 h2 hx hw
    exact ⟨h1.cut _ _ _ hw, k1, k2.trans h3, k3.trans h4⟩
  | load _ ih => obtain ⟨h1, h2, h3, h4⟩ := ih; exact ⟨h1.load, h2, h3, h4⟩
  | unread _ ih => obtain ⟨h1, h2, h3, h4⟩ := ih; exact ⟨h1.unread, h2, h3, h4⟩

end Fave.Index
