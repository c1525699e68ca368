import Verif.Spec.Replies
import Verif.Lemmas.Meant
import Verif.Lemmas.Rest
import Verif.Lemmas.Bodies
import Verif.Props.C21
/-!
# Lemmas on answers as texts
-/
namespace Fave.Replies
open Json F32 Docs Bodies Client Texts
variable [Dist Num]

/-- the reply to a request that reached the client -/
def reply (odd : Option G → Text) : Req Num Num → Ans Num Num → Reply
  | .create .., a | .delete .., a => .plain (Rest.okResp .ok a)
  | .list _, a => .plain (match a with
      | .names l => .listed (l.map (fun c => (c.1, c.2.filterMap (fun e => (Rest.typeName e.2).map (fun t => (e.1, t))))))
      | .failed e => Rest.refusal e
      | _ => .bad .failed)
  | .add _ _ _ docs, a => .plain (Rest.okResp (.added docs.length) a)
  | .nearText _ n .., a | .nearVector _ n .., a => searched odd n a
  | .get .., a => looked odd a
  | _, _ => .plain .ok

/-- the reply to a request that did not -/
def Short : Reply → Prop
  | .missing | .unreadable | .plain (.bad _) | .plain .unprocessable | .plain .crash => True
  | _ => False

theorem readIndexes_error {F D : Type} {l : List (Option (Str × Str))} {m : Map IxType} {e : Rest.Resp F D} (h : Rest.readIndexes l m = .error e) :
    e = .crash ∨ e = .bad .indexType := by
  induction l generalizing m with
  | nil => cases h
  | cons x l ih =>
    cases x with
    | none => cases h; exact .inl rfl
    | some x =>
      obtain ⟨f, t⟩ := x
      simp only [Rest.readIndexes] at h
      split at h
      · cases h; exact .inr rfl
      · exact ih h
      · exact ih h

/-- the reply fits what was asked of the client -/
def Fits (E : Env Num Num) (odd : Option G → Text) (w : World Num) (rep : Reply) : Option (Req Num Num) → Prop
  | some c => rep = reply odd c (Client.serve E w c).2
  | none => Short rep

theorem replied (E : Env Num Num) (uuid : Str → Bool) (odd : Option G → Text) (w : World Num) (r : TReq) :
    Fits E odd w (Texts.serve E uuid odd w r).2 (meant uuid r) := by
  cases r with
  | login ok => rfl
  | openPod ok => rfl
  | restart => rfl
  | delete o n => rfl
  | list o =>
    simp only [Fits, meant, Texts.serve, Texts.read, handled, Rest.handle, reply]
    cases (Client.serve E w (.list o)).2 <;> rfl
  | create o body =>
    simp only [Texts.serve, Texts.read, meant]
    cases Bodies.bind collOf body with
    | missing => trivial
    | unreadable => trivial
    | ok b =>
      simp only [handled, Rest.handle]
      by_cases hn : b.name = []
      · simp only [hn, if_true]; trivial
      · simp only [if_neg hn]
        cases b.indexes with
        | none => trivial
        | some l =>
          simp only [Option.map_some, Option.bind_some]
          cases h : (Rest.readIndexes (l.map fun i => i.map fun i => (i.fieldName, i.fieldType)) [] : Except (Rest.Resp Num Num) _) with
          | ok m => rfl
          | error e => rcases readIndexes_error h with rfl | rfl <;> trivial
  | add o body =>
    simp only [Texts.serve, Texts.read, meant]
    cases Bodies.bind addOf body with
    | missing => trivial
    | unreadable => trivial
    | ok b =>
      simp only [handled, Rest.handle]
      cases hd : b.docs with
      | none =>
        simp only [Option.map_none, Option.getD_none, List.any_nil, Bool.false_eq_true, if_false, Option.bind_none, ite_self]
        split <;> trivial
      | some l =>
        simp only [Option.map_some, Option.getD_some, Option.bind_some]
        by_cases hn : none ∈ l
        · have h1 : l.any (unfit uuid) = true := List.any_eq_true.2 ⟨none, hn, rfl⟩
          rw [readDocs_null hn]
          simp only [h1, if_true, ite_self]
          split
          · trivial
          · split
            · trivial
            · cases b.toVec <;> trivial
        · have hany : (l.map fun d => d.map rawDoc).any (Rest.badId uuid) = l.any (unfit uuid) := by
            rw [List.any_map]
            apply Bool.eq_iff_iff.2
            rw [List.any_eq_true, List.any_eq_true]
            constructor <;>
            · rintro ⟨x, hx, h⟩
              cases x with
              | none => exact absurd hx hn
              | some d => exact ⟨_, hx, h⟩
          rw [hany, readDocs_eq l fun x hx => fun e => hn (e ▸ hx)]
          by_cases hu : l.any (unfit uuid) = true
          · simp only [hu, if_true, ite_self]; trivial
          · rw [if_neg hu, if_neg hu]
            by_cases hne : b.name = []
            · simp only [hne, if_true]; trivial
            · simp only [hne, if_false]
              cases b.toVec with
              | none => trivial
              | some ti => simp only [Option.map_some, Fits, reply, List.length_map]
  | nearText o body =>
    simp only [Texts.serve, Texts.read, meant]
    cases Bodies.bind nearOf body with
    | missing => trivial
    | unreadable => trivial
    | ok b =>
      simp only [handled]
      by_cases h1 : b.name = []
      · simp only [h1, true_or, if_true]; trivial
      · by_cases h2 : b.text = []
        · simp only [h1, h2, or_true, if_true, if_false]; trivial
        · simp only [h1, h2, or_self, if_false]; rfl
  | nearVector o body =>
    simp only [Texts.serve, Texts.read, meant]
    cases Bodies.bind vecOf body with
    | missing => trivial
    | unreadable => trivial
    | ok b =>
      simp only [handled]
      by_cases h1 : b.name = []
      · simp only [h1, if_true]; trivial
      · simp only [h1, if_false]
        cases b.vec with
        | none => trivial
        | some v => rfl
  | get o sat n p v =>
    simp only [Texts.serve, Texts.read, handled, meant]
    by_cases h : n = [] ∨ p = [] ∨ v = []
    · simp only [if_pos h]; trivial
    · simp only [if_neg h]; rfl

/-! ## What is written is JSON -/

theorem messageJ_ok (m : Text) : (messageJ m).Ok := .obj _ fun x hx => nonEmpty_ok (.str _) x hx

theorem errorJ_ok (ms : List Text) : (errorJ ms).Ok := by
  refine .obj _ fun x hx => ?_
  rw [List.mem_singleton.1 hx]
  refine .arr _ fun j hj => ?_
  obtain ⟨m, -, rfl⟩ := List.mem_map.1 hj
  exact messageJ_ok m

theorem listed_ok (l : List (Text × List (Text × Text))) : (J.arr (l.map listedJ)).Ok := by
  refine .arr _ fun j hj => ?_
  obtain ⟨m, -, rfl⟩ := List.mem_map.1 hj
  exact collJ_ok _

omit [Dist Num] in
mutual
theorem write_ok : ∀ (g : G) (j : J), write g = some j → j.Ok
  | .null, j, h => by cases h; exact .null
  | .bool b, j, h => by cases h; exact .bool b
  | .num x, j, h => by
    rw [write] at h
    obtain ⟨l, hl, rfl⟩ := Option.map_eq_some_iff.1 h
    exact .num _ (Fmt.lit_ok hl)
  | .single (.fin x), j, h => by
    rw [write] at h
    obtain ⟨l, hl, rfl⟩ := Option.map_eq_some_iff.1 h
    exact .num _ (Fmt.lit_ok hl)
  | .single (.inf _), j, h => by simp [write] at h
  | .single .nan, j, h => by simp [write] at h
  | .str s, j, h => by cases h; exact .str s
  | .arr l, j, h => by
    rw [write] at h
    obtain ⟨r, hr, rfl⟩ := Option.map_eq_some_iff.1 h
    exact .arr _ (writeList_ok l r hr)
  | .obj l, j, h => by
    rw [write] at h
    obtain ⟨r, hr, rfl⟩ := Option.map_eq_some_iff.1 h
    exact .obj _ (writeMembers_ok l r hr)
theorem writeList_ok : ∀ (l : List G) (r : List J), writeList l = some r → ∀ j ∈ r, j.Ok
  | [], r, h => by cases h; simp
  | g :: l, r, h => by
    rw [writeList] at h
    split at h
    · rename_i v r' hv hr'
      cases h
      intro j hj
      rcases List.mem_cons.1 hj with rfl | hj
      · exact write_ok g _ hv
      · exact writeList_ok l r' hr' j hj
    · cases h
theorem writeMembers_ok : ∀ (l : List (Text × G)) (r : List (Text × J)), writeMembers l = some r → ∀ x ∈ r, x.2.Ok
  | [], r, h => by cases h; simp
  | (k, g) :: l, r, h => by
    rw [writeMembers] at h
    split at h
    · rename_i v r' hv hr'
      cases h
      intro j hj
      rcases List.mem_cons.1 hj with rfl | hj
      · exact write_ok g _ hv
      · exact writeMembers_ok l r' hr' j hj
    · cases h
end

theorem shown_ok {odd : Option G → Text} {p : List (Text × G)} {d : Option Num} {j : J} (h : shown odd p d = some j) :
    j.Ok ∧ ∃ l, j = .obj l ∧ kError ∉ l.map Prod.fst := by
  unfold shown at h
  obtain ⟨l, hl, rfl⟩ := Option.map_eq_some_iff.1 h
  refine ⟨answerJ_ok (writeMembers_ok _ _ hl), _, rfl, ?_⟩
  split <;> simp [kError, kId, kProperties]

theorem showAll_ok {odd : Option G → Text} {l : List (List (Text × G) × Num)} {js : List J} (h : showAll odd l = some js) : ∀ j ∈ js, j.Ok := by
  induction l generalizing js with
  | nil => cases h; simp
  | cons x l ih =>
    obtain ⟨p, d⟩ := x
    unfold showAll at h
    split at h
    · rename_i j r hj hr
      cases h
      intro a ha
      rcases List.mem_cons.1 ha with rfl | ha
      · exact (shown_ok hj).1
      · exact ih hr a ha
    · cases h

/-- the text of a look-up or search is an object without "error" -/
def Fine (t : Text) : Prop := ∃ l, parse t = some (.obj l) ∧ kError ∉ l.map Prod.fst

theorem lookedUp_fine {odd : Option G → Text} {t u : Text} (h : lookedUp odd t = .ok u) : Fine u := by
  unfold lookedUp at h
  split at h
  · cases h
  · split at h
    · cases h
    · rename_i j hj
      cases h
      obtain ⟨ok, l, rfl, hl⟩ := shown_ok hj
      exact ⟨l, parse_line ok, hl⟩

theorem hits_error {ts : List Text} {ds : List Num} {e : Docs.Answer} (h : hits ts ds = .error e) : ∀ t, e ≠ .ok t := by
  induction ts generalizing ds with
  | nil => cases h
  | cons a ts ih =>
    unfold hits at h
    split at h
    · cases h; simp
    · cases h; simp
    · rename_i p d ds _
      cases hh : hits ts ds with
      | error e' => rw [hh] at h; cases h; exact ih hh
      | ok r => rw [hh] at h; cases h

theorem found_fine {odd : Option G → Text} {name : Text} {ts : List Text} {ds : List Num} {u : Text} (h : found odd name ts ds = .ok u) : Fine u := by
  unfold found at h
  split at h
  · rename_i e he
    exact absurd h (hits_error he u)
  · split at h
    · cases h
    · rename_i js hjs
      cases h
      refine ⟨_, parse_line (.obj _ fun m hm => ?_), ?_⟩
      · rcases List.mem_append.1 hm with hm | hm
        · rw [List.mem_singleton.1 hm]; exact .arr _ (showAll_ok hjs)
        · split at hm
          · cases hm
          · rw [List.mem_singleton.1 hm]; exact .str _
      · split <;> simp [kError, kDocuments, kName]

/-! ## Success -/

theorem ofErr_done {F D : Type} {e : Option Err} : (Ans.ofErr e : Ans F D) = .done ∨ ∃ x, (Ans.ofErr e : Ans F D) = .failed x := by
  cases e with
  | none => exact .inl rfl
  | some x => exact .inr ⟨x, rfl⟩

/-- requests of the interface -/
def Http : TReq → Prop
  | .login _ | .openPod _ | .restart => False
  | _ => True

omit [Dist Num] in
theorem answer_eq [Dist Num] (E : Env Num Num) (uuid : Str → Bool) (odd : Option G → Text) (err : Text) (w : World Num) {r : TReq} (h : Http r) :
    answer E uuid odd err w r = written err r (Texts.serve E uuid odd w r).2 := by
  cases r <;> first | rfl | exact h.elim

omit [Dist Num] in
theorem answer_http [Dist Num] {E : Env Num Num} {uuid : Str → Bool} {odd : Option G → Text} {err : Text} {w : World Num} {r : TReq} {s : Nat} {t : Option Text}
    (h : answer E uuid odd err w r = .sent s t) : Http r := by
  cases r <;> first | trivial | cases h

theorem short_not_ok {err : Text} {r : TReq} {rep : Reply} (h : Short rep) (t : Option Text) : written err r rep ≠ .sent 200 t := by
  cases rep with
  | missing => simp [written]
  | unreadable => simp [written]
  | text a => exact h.elim
  | plain a => cases a <;> first | exact h.elim | simp [written]

theorem meant_http {uuid : Str → Bool} {r : TReq} {c : Req Num Num} (h : Http r) (hc : meant uuid r = some c) :
    c ≠ .restart ∧ (∀ ok, c ≠ .login ok) ∧ ∀ ok, c ≠ .openPod ok := by
  have key : ∀ o : Option (Req Num Num), (∀ c, o = some c → c ≠ .restart ∧ (∀ ok, c ≠ .login ok) ∧ ∀ ok, c ≠ .openPod ok) → o = some c →
    c ≠ .restart ∧ (∀ ok, c ≠ .login ok) ∧ ∀ ok, c ≠ .openPod ok := fun o ho hoc => ho c hoc
  cases r with
  | login ok => exact h.elim
  | openPod ok => exact h.elim
  | restart => exact h.elim
  | delete o n => cases hc; simp
  | list o => cases hc; simp
  | create o body =>
    simp only [meant] at hc
    split at hc
    · split at hc
      · cases hc
      · rename_i b _ _
        cases hi : b.indexes with
        | none => rw [hi] at hc; cases hc
        | some l =>
          rw [hi, Option.bind_some] at hc
          split at hc
          · cases hc; simp
          · cases hc
    · cases hc
  | add o body =>
    simp only [meant] at hc
    split at hc
    · split at hc
      · cases hc
      · rename_i b _ _
        cases hi : b.docs with
        | none => rw [hi] at hc; cases hc
        | some l =>
          rw [hi, Option.bind_some] at hc
          split at hc
          · cases hc
          · obtain ⟨ti, -, rfl⟩ := Option.map_eq_some_iff.1 hc
            simp
    · cases hc
  | nearText o body =>
    simp only [meant] at hc
    split at hc
    · split at hc
      · cases hc
      · cases hc; simp
    · cases hc
  | nearVector o body =>
    simp only [meant] at hc
    split at hc
    · split at hc
      · cases hc
      · obtain ⟨ti, -, rfl⟩ := Option.map_eq_some_iff.1 hc
        simp
    · cases hc
  | get o sat n p v =>
    simp only [meant] at hc
    split at hc
    · cases hc
    · cases hc; simp

/-- only what the client has done is answered with 200 -/
theorem sent_ok {E : Env Num Num} {uuid : Str → Bool} {odd : Option G → Text} {err : Text} {w : World Num} {r : TReq} {t : Option Text}
    (h : answer E uuid odd err w r = .sent 200 t) :
    ∃ c, meant uuid r = some c ∧ (Texts.serve E uuid odd w r).2 = reply odd c (Client.serve E w c).2 ∧ ∀ e, (Client.serve E w c).2 ≠ .failed e := by
  have hr := replied E uuid odd w r
  have hh := answer_http h
  rw [answer_eq _ _ _ _ _ hh] at h
  generalize hrep : (Texts.serve E uuid odd w r).2 = rep at h hr
  cases hm : meant uuid r with
  | none =>
    rw [hm] at hr
    exact absurd h (short_not_ok hr t)
  | some c =>
    rw [hm] at hr
    refine ⟨c, rfl, hr, fun e he => ?_⟩
    have hr : rep = reply odd c (Client.serve E w c).2 := hr
    rw [hr, he] at h
    have h1 : ∀ e, written err r (.plain (Rest.refusal e)) ≠ .sent 200 t := by
      intro e
      unfold Rest.refusal
      split <;> simp [written]
    obtain ⟨m1, m2, m3⟩ := meant_http hh hm
    cases c with
    | login ok => exact absurd rfl (m2 ok)
    | openPod ok => exact absurd rfl (m3 ok)
    | restart => exact absurd rfl m1
    | create o n ix => exact h1 e h
    | delete o n => exact h1 e h
    | list o => exact h1 e h
    | add o n ti docs => exact h1 e h
    | nearText o n q m l => exact h1 e h
    | nearVector o n q m l => exact h1 e h
    | get o sat n p v => exact h1 e h

end Fave.Replies
