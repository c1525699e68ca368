import Verif.Spec.Numbers
/-!
# What a text asks of the client
-/
namespace Fave.Texts
open Json F32 Docs Bodies Client
variable [Dist Num]

theorem readDocs_eq : ∀ (l : List (Option DocB)), (∀ x ∈ l, x ≠ none) →
    Rest.readDocs (l.map fun d => d.map rawDoc) = some (l.map fun d => d.bind docOf)
  | [], _ => rfl
  | none :: _, h => absurd rfl (h none (by simp))
  | some d :: l, h => by
    simp only [List.map_cons, Option.map_some, Rest.readDocs, readDocs_eq l fun x hx => h x (by simp [hx]), Option.bind_some, Option.some.injEq, List.cons.injEq,
      and_true]
    unfold rawDoc docOf
    simp only
    cases d.props with
    | none => rfl
    | some v => cases v <;> rfl

theorem readDocs_null : ∀ {l : List (Option DocB)}, none ∈ l → Rest.readDocs (l.map fun d => d.map rawDoc) = none
  | none :: _, _ => rfl
  | some d :: l, h => by
    rcases List.mem_cons.1 h with h | h
    · cases h
    · simp only [List.map_cons, Option.map_some, Rest.readDocs, readDocs_null h, Option.map_none]

/-- what a request does to the world is what the client does for what it means -/
theorem serve_meant (E : Env Num Num) (uuid : Str → Bool) (odd : Option G → Text) (w : World Num) (r : TReq) :
    (serve E uuid odd w r).1 = match meant uuid r with | some c => (Client.serve E w c).1 | none => w := by
  cases r with
  | login ok => rfl
  | openPod ok => rfl
  | restart => rfl
  | delete o n => rfl
  | list o => rfl
  | create o body =>
    simp only [serve, read, meant]
    cases Bodies.bind collOf body with
    | missing => rfl
    | unreadable => rfl
    | ok b =>
      simp only [handled, Rest.handle]
      split
      · rfl
      · cases b.indexes with
        | none => rfl
        | some l =>
          simp only [Option.map_some, Option.bind_some]
          cases (Rest.readIndexes (l.map fun i => i.map fun i => (i.fieldName, i.fieldType)) [] : Except (Rest.Resp Num Num) _) <;> rfl
  | add o body =>
    simp only [serve, read, meant]
    cases Bodies.bind addOf body with
    | missing => rfl
    | unreadable => rfl
    | ok b =>
      simp only [handled, Rest.handle]
      cases hd : b.docs with
      | none =>
        simp only [Option.map_none, Option.getD_none, List.any_nil, Bool.false_eq_true, if_false, Option.bind_none]
        split <;> rfl
      | some l =>
        simp only [Option.map_some, Option.getD_some, Option.bind_some]
        by_cases hn : none ∈ l
        · have h1 : l.any (unfit uuid) = true := List.any_eq_true.2 ⟨none, hn, rfl⟩
          rw [readDocs_null hn]
          simp only [h1, if_true, ite_self]
          split
          · rfl
          · split
            · rfl
            · cases b.toVec <;> rfl
        · have hany : (l.map fun d => d.map rawDoc).any (Rest.badId uuid) = l.any (unfit uuid) := by
            rw [List.any_map]
            apply Bool.eq_iff_iff.2
            rw [List.any_eq_true, List.any_eq_true]
            constructor <;>
            · rintro ⟨x, hx, h⟩
              cases x with
              | none => exact absurd hx hn
              | some d => exact ⟨_, hx, h⟩
          rw [hany, readDocs_eq l fun x hx => fun e => hn (e ▸ hx)]
          split
          · simp only [ite_self]
          · by_cases hne : b.name = []
            · simp only [hne, if_true]
            · simp only [hne, if_false]
              cases b.toVec <;> rfl
  | nearText o body =>
    simp only [serve, read, meant]
    cases Bodies.bind nearOf body with
    | missing => rfl
    | unreadable => rfl
    | ok b =>
      simp only [handled]
      by_cases h1 : b.name = []
      · simp [h1]
      · by_cases h2 : b.text = [] <;> simp [h1, h2]
  | nearVector o body =>
    simp only [serve, read, meant]
    cases Bodies.bind vecOf body with
    | missing => rfl
    | unreadable => rfl
    | ok b =>
      simp only [handled]
      by_cases h1 : b.name = []
      · simp [h1]
      · cases hv : b.vec <;> simp [h1]
  | get o sat n p v =>
    simp only [serve, read, handled, meant]
    split <;> rfl

theorem run_meant (E : Env Num Num) (uuid : Str → Bool) (odd : Option G → Text) : ∀ (rs : List TReq) (w : World Num),
    run E uuid odd w rs = Client.run E w (rs.filterMap (meant uuid))
  | [], _ => rfl
  | r :: rs, w => by
    show run E uuid odd (serve E uuid odd w r).1 rs = _
    rw [run_meant E uuid odd rs, serve_meant, List.filterMap_cons]
    cases meant uuid r <;> rfl

/-- the documents of an addition that was meant were in its body -/
theorem meant_says {uuid : Str → Bool} {r : TReq} {o : Oracle Num Num} {name : Text} {ti : List Str} {docs : List (Option (Doc Num))}
    (h : meant uuid r = some (.add o name ti docs)) {d : Doc Num} (hd : some d ∈ docs) :
    ∃ body b ds x l, r = .add o body ∧ Bodies.bind addOf body = .ok b ∧ b.name = name ∧ b.docs = some ds ∧ some x ∈ ds ∧ x.props = some (.obj l) ∧
      d = ⟨x.id, props l⟩ := by
  cases r with
  | add o' body =>
    simp only [meant] at h
    cases hb : Bodies.bind addOf body with
    | missing => rw [hb] at h; cases h
    | unreadable => rw [hb] at h; cases h
    | ok b =>
      rw [hb] at h
      simp only at h
      split at h
      · cases h
      · cases hds : b.docs with
        | none => rw [hds] at h; cases h
        | some ds =>
          rw [hds] at h
          simp only [Option.bind_some] at h
          split at h
          · cases h
          · cases ht : b.toVec with
            | none => rw [ht] at h; cases h
            | some t =>
              rw [ht] at h
              simp only [Option.map_some, Option.some.injEq, Req.add.injEq] at h
              obtain ⟨rfl, h2, h3, h4⟩ := h
              rw [← h4] at hd
              obtain ⟨x, hx, hxd⟩ := List.mem_map.1 hd
              obtain ⟨x', rfl, hxd⟩ := Option.bind_eq_some_iff.1 hxd
              simp only [Option.bind_some, docOf] at hxd
              cases hp : x'.props with
              | none => rw [hp] at hxd; cases hxd
              | some v =>
                rw [hp] at hxd
                cases v with
                | obj l => cases hxd; exact ⟨body, b, ds, x', l, rfl, hb, h2, hds, hx, hp, rfl⟩
                | _ => cases hxd
  | create o body =>
    simp only [meant] at h
    cases hb : Bodies.bind collOf body with
    | missing => rw [hb] at h; cases h
    | unreadable => rw [hb] at h; cases h
    | ok b =>
      rw [hb] at h
      simp only at h
      split at h
      · cases h
      · obtain ⟨l, -, h⟩ := Option.bind_eq_some_iff.1 h
        split at h <;> cases h
  | nearText o body =>
    simp only [meant] at h
    cases hb : Bodies.bind nearOf body with
    | missing => rw [hb] at h; cases h
    | unreadable => rw [hb] at h; cases h
    | ok b =>
      rw [hb] at h
      simp only at h
      split at h <;> cases h
  | nearVector o body =>
    simp only [meant] at h
    cases hb : Bodies.bind vecOf body with
    | missing => rw [hb] at h; cases h
    | unreadable => rw [hb] at h; cases h
    | ok b =>
      rw [hb] at h
      simp only at h
      split at h
      · cases h
      · obtain ⟨l, -, h⟩ := Option.map_eq_some_iff.1 h
        cases h
  | get o sat n p v =>
    simp only [meant] at h
    split at h <;> cases h
  | login _ | openPod _ | restart | delete _ _ | list _ => cases h

end Fave.Texts
