import Verif.Spec.Texts
import Verif.Lemmas.Bodies
import Verif.Lemmas.Origin
/-!
# Lemmas on the server on texts
-/
namespace Fave.Texts
open Json F32 Docs Stored Bodies Client

/-! ## Codes -/

theorem length_le_code (t : Text) : t.length ≤ code t := by
  induction t with
  | nil => simp [code]
  | cons c t ih => simp only [code, List.length_cons]; omega

theorem uncode_code (t : Text) : ∀ f, t.length ≤ f → uncode f (code t) = t := by
  induction t with
  | nil => intro f _; cases f <;> rfl
  | cons c t ih =>
    intro f hf
    cases f with
    | zero => simp at hf
    | succ f =>
      have hc : c.toNat < 1114112 := by
        have := c.valid
        simp only [UInt32.isValidChar, Nat.isValidChar] at this
        simp only [Char.toNat]
        omega
      rw [code, show code t * 1114112 + c.toNat + 1 = (code t * 1114112 + c.toNat) + 1 from rfl, uncode]
      have h1 : (code t * 1114112 + c.toNat) % 1114112 = c.toNat := by omega
      have h2 : (code t * 1114112 + c.toNat) / 1114112 = code t := by omega
      rw [h1, h2, ih f (by simpa using hf), Char.ofNat_toNat]

/-- a value comes back from the client as it went in, vectors aside -/
theorem unval_val {k : Text} {v : J} (hv : v.Ok) (h : k ≠ kVector ∨ ∀ l, v ≠ .arr l) : unval (val k v) = v := by
  have key : ∀ w : J, w.Ok → unval (.other (code (render false w))) = w := by
    intro w hw
    simp only [unval, uncode_code _ _ (length_le_code _), parse_render hw, Option.getD_some]
  cases v with
  | null => rfl
  | str s => rfl
  | bool b => exact key _ hv
  | num l => exact key _ hv
  | obj l => exact key _ hv
  | arr l =>
    have hk : k ≠ kVector := by
      rcases h with h | h
      · exact h
      · exact absurd rfl (h l)
    simp only [val, if_neg hk]
    exact key _ hv

/-! ## Tables -/

theorem mem_lookup_isSome {α : Type} {l : List (Text × α)} {k : Text} {v : α} (h : (k, v) ∈ l) : (l.lookup k).isSome := by
  induction l with
  | nil => simp at h
  | cons a l ih =>
    obtain ⟨k', v'⟩ := a
    rw [List.lookup_cons]
    cases hk : (k == k') with
    | true => simp
    | false =>
      rcases List.mem_cons.1 h with h | h
      · simp only [Prod.mk.injEq] at h
        rw [h.1] at hk
        simp at hk
      · exact ih h

theorem sorted_ext {α : Type} : ∀ {l l' : List (Text × α)}, Sorted l → Sorted l' → (∀ k, l.lookup k = l'.lookup k) → l = l'
  | [], [], _, _, _ => rfl
  | [], (k, v) :: l', _, _, h => by
    have := h k
    simp at this
  | (k, v) :: l, [], _, _, h => by
    have := h k
    simp at this
  | (k, v) :: l, (k', v') :: l', hs, hs', h => by
    have hl := List.pairwise_cons.1 hs
    have hl' := List.pairwise_cons.1 hs'
    have hk : k = k' := by
      by_contra hne
      have h1 := h k
      rw [List.lookup_cons_self, List.lookup_cons, beq_eq_false_iff_ne.2 hne] at h1
      have h2 := h k'
      rw [List.lookup_cons_self, List.lookup_cons, beq_eq_false_iff_ne.2 (Ne.symm hne)] at h2
      have a := hl'.1 _ (lookup_some_mem h1.symm)
      have b := hl.1 _ (lookup_some_mem h2)
      have := before_trans a b
      rw [before_irrefl] at this
      cases this
    subst hk
    have hv : v = v' := by
      have := h k
      simpa using this
    subst hv
    have : l = l' := sorted_ext hl.2 hl'.2 fun j => by
      by_cases hj : j = k
      · subst hj
        have n1 : l.lookup j = none := by
          cases e : l.lookup j with
          | none => rfl
          | some x =>
            have := hl.1 _ (lookup_some_mem e)
            rw [before_irrefl] at this
            cases this
        have n2 : l'.lookup j = none := by
          cases e : l'.lookup j with
          | none => rfl
          | some x =>
            have := hl'.1 _ (lookup_some_mem e)
            rw [before_irrefl] at this
            cases this
        rw [n1, n2]
      · have := h j
        rw [List.lookup_cons, List.lookup_cons, beq_eq_false_iff_ne.2 hj] at this
        exact this
    rw [this]

theorem fold_put (p : Props Num) : ∀ t : List (Text × J), Sorted t →
    Sorted (p.foldl (fun t m => put m.1 (unval m.2) t) t) ∧
    (p.keys.Nodup → ∀ k, (p.foldl (fun t m => put m.1 (unval m.2) t) t).lookup k = ((p.get k).map unval).or (t.lookup k)) := by
  induction p with
  | nil => intro t ht; exact ⟨ht, fun _ k => by simp⟩
  | cons m p ih =>
    intro t ht
    obtain ⟨h1, h2⟩ := ih (put m.1 (unval m.2) t) (sorted_put ht)
    refine ⟨h1, fun hn k => ?_⟩
    simp only [Map.keys, List.map_cons, List.nodup_cons] at hn
    rw [List.foldl_cons, h2 hn.2, lookup_put, Map.get_cons]
    by_cases hk : m.1 = k
    · subst hk
      have : Map.get p m.1 = none := by
        cases e : Map.get p m.1 with
        | none => rfl
        | some x => exact absurd (Map.get_isSome.1 (by rw [e]; rfl)) hn.1
      simp [this]
    · rw [if_neg (Ne.symm hk), if_neg hk]

theorem table_sorted (p : Props Num) : Sorted (table p) := (fold_put p [] sorted_nil).1

theorem table_lookup {p : Props Num} (hn : p.keys.Nodup) (k : Text) : (table p).lookup k = (p.get k).map unval := by
  have := (fold_put p [] sorted_nil).2 hn k
  unfold table
  rw [this]
  simp

theorem nodup_del {α : Type} {m : Map α} (h : m.keys.Nodup) (k : Str) : (m.del k).keys.Nodup := by
  rw [Map.keys_del]; exact h.filter _

theorem nodup_set {α : Type} {m : Map α} (h : m.keys.Nodup) (k : Str) (v : α) : (m.set k v).keys.Nodup := by
  unfold Map.set
  have : Map.keys (m.del k ++ [(k, v)]) = (m.del k).keys ++ [k] := by simp [Map.keys]
  rw [this, List.nodup_append]
  refine ⟨nodup_del h k, by simp, ?_⟩
  rintro a ha b hb rfl
  rw [Map.keys_del] at ha
  simp only [List.mem_singleton] at hb
  simp [hb] at ha

theorem get_props (l : List (Text × J)) (k : Text) : (props l).get k = (l.lookup k).map (val k) := by
  induction l with
  | nil => rfl
  | cons m l ih =>
    obtain ⟨j, v⟩ := m
    show Map.get ((j, val j v) :: props l) k = _
    rw [Map.get_cons, List.lookup_cons]
    by_cases h : j = k
    · subst h; simp
    · rw [if_neg h, beq_eq_false_iff_ne.2 (Ne.symm h), ih]

theorem props_nodup {l : List (Text × J)} (h : Sorted l) : (props l).keys.Nodup := by
  unfold props Map.keys
  rw [List.map_map]
  refine List.Pairwise.map _ ?_ h
  intro a b hab e
  simp only [Function.comp] at e
  rw [e, before_irrefl] at hab
  cases hab

theorem keptProps_nodup {d : Doc Num} (h : d.props.keys.Nodup) (n : Option Nat) : (keptProps d n).keys.Nodup := by
  unfold keptProps
  simp only
  split
  · exact nodup_set (nodup_set h _ _) _ _
  · exact nodup_del (nodup_set (nodup_set h _ _) _ _) _

theorem val_null {k : Text} {v : J} : val k v = .null ↔ v = .null := by
  cases v <;> simp [val]
  split <;> simp

/-- the table kept for a document is the one of Model/Docs -/
theorem table_kept {l : List (Text × J)} (hs : Sorted l) (ht : takeMembers [] l = l) (hok : ∀ m ∈ l, m.2.Ok) (id : Text) (n : Option Nat) :
    table (keptProps ⟨id, props l⟩ n) = kept id n l := by
  have hn := keptProps_nodup (d := ⟨id, props l⟩) (props_nodup hs) n
  refine sorted_ext (table_sorted _) (sorted_kept id n l) fun k => ?_
  rw [table_lookup hn, lookup_kept]
  have hlast : ∀ k, (last l k).map take = l.lookup k := fun k => by rw [← lookup_take, ht]
  have hput : ∀ k, (put kId (.str id) (takeMembers [] l)).lookup k = if k = kId then some (.str id) else l.lookup k := fun k => by rw [lookup_put, ht]
  have a2 : kVector ≠ kId := by decide
  have a3 : kVector ≠ kIndex := by decide
  have hvec : noVector ((props l).set idName (.str id)) = !hasVector (put kId (.str id) (takeMembers [] l)) := by
    unfold noVector hasVector
    rw [hput, if_neg a2, Map.get_set, if_neg (show vectorName ≠ idName by decide), get_props]
    rw [show (vectorName : Str) = kVector from rfl]
    cases hl : l.lookup kVector with
    | none => rfl
    | some v =>
      cases v with
      | arr x => rfl
      | _ => rfl
  have hint : unval (.int (numberOf n)) = indexJ n := by
    cases n with
    | none => rfl
    | some m =>
      have : ¬ (m : Int) < 0 := by omega
      simp [unval, intJ, indexJ, uintJ, numberOf, this]
  have hmember : ∀ v, l.lookup k = some v → (k ≠ kVector ∨ v = .null) → unval (val k v) = v := by
    intro v hv h
    refine unval_val (hok _ (lookup_some_mem hv)) ?_
    rcases h with h | h
    · exact .inl h
    · exact .inr (by rw [h]; simp)
  rw [hlast]
  unfold keptProps
  simp only
  by_cases h1 : k = kIndex
  · rw [if_pos h1]
    subst h1
    have e : (kIndex : Str) = hnswName := rfl
    split
    · rw [Map.get_set, if_pos e]; simp [hint]
    · rw [Map.get_del, if_neg (show (kIndex : Str) ≠ vectorName by decide), Map.get_set, if_pos e]; simp [hint]
  · rw [if_neg h1]
    by_cases h2 : k = kId
    · rw [if_pos h2]
      subst h2
      have e : (kId : Str) = idName := rfl
      split
      · rw [Map.get_set, if_neg (show (kId : Str) ≠ hnswName by decide), Map.get_set, if_pos e]; rfl
      · rw [Map.get_del, if_neg (show (kId : Str) ≠ vectorName by decide), Map.get_set, if_neg (show (kId : Str) ≠ hnswName by decide), Map.get_set,
          if_pos e]
        rfl
    · rw [if_neg h2]
      have g1 : ¬ k = hnswName := h1
      have g2 : ¬ k = idName := h2
      rw [hvec]
      cases hh : hasVector (put kId (.str id) (takeMembers [] l)) with
      | true =>
        simp only [Bool.not_true, Bool.false_eq_true, if_false]
        by_cases h3 : k = kVector
        · have e : k = vectorName := h3
          rw [Map.get_del, if_pos e, if_pos (by simp [h3])]
          rfl
        · have e : ¬ k = vectorName := h3
          rw [Map.get_del, if_neg e, Map.get_set, if_neg g1, Map.get_set, if_neg g2, get_props, if_neg (by simp [h3])]
          cases hl : l.lookup k with
          | none => rfl
          | some v => simp [hmember v hl (.inl h3)]
      | false =>
        simp only [Bool.not_false, if_true]
        rw [Map.get_set, if_neg g1, Map.get_set, if_neg g2, get_props, if_neg (by simp)]
        cases hl : l.lookup k with
        | none => rfl
        | some v =>
          have : k ≠ kVector ∨ v = .null := by
            by_cases h3 : k = kVector
            · right
              have := hasVector_null hh
              rw [hput, if_neg a2, ← h3, hl] at this
              simpa using this
            · exact .inl h3
          simp [hmember v hl this]

/-! ## Where stored documents come from -/

section
variable [Dist Num]

theorem readDocs_mem {l : List (Option (Rest.RawDoc Num))} {ds : List (Option (Doc Num))} (h : Rest.readDocs l = some ds) {d : Doc Num}
    (hd : some d ∈ ds) : ∃ raw, some raw ∈ l ∧ raw.id = d.id ∧ raw.props = some d.props := by
  induction l generalizing ds with
  | nil => simp only [Rest.readDocs, Option.some.injEq] at h; simp [← h] at hd
  | cons x l ih =>
    cases x with
    | none => simp [Rest.readDocs] at h
    | some raw =>
      simp only [Rest.readDocs, Option.map_eq_some_iff] at h
      obtain ⟨r, hr, rfl⟩ := h
      rcases List.mem_cons.1 hd with hd | hd
      · cases hp : raw.props with
        | none => simp [hp] at hd
        | some p =>
          simp only [hp, Option.map_some, Option.some.injEq] at hd
          exact ⟨raw, by simp, by rw [hd], by rw [hd, hp]⟩
      · obtain ⟨raw', h1, h2⟩ := ih hr hd
        exact ⟨raw', by simp [h1], h2⟩

/-- a request leaves only documents that were there or that its body contains -/
theorem step_docs {E : Env Num Num} {uuid : Str → Bool} {odd : Option G → Text} {w : World Num} {r : TReq} {name : Text} {q : Props Num}
    (h : q ∈ (serve E uuid odd w r).1.docs (ns ++ name)) :
    (q ∈ w.docs (ns ++ name) ∧ ¬ Wipes w r name) ∨ ∃ d l, Says r name d l ∧ From E ⟨d.id, props l⟩ q := by
  have viaClient : ∀ c : Req Num Num, q ∈ (Client.serve E w c).1.docs (ns ++ name) → (∀ o ti docs, c ≠ .add o name ti docs) →
      (∀ o n, r = .delete o n → c = .delete o n) → q ∈ w.docs (ns ++ name) ∧ ¬ Wipes w r name := by
    intro c hc hna hdel
    rcases serve_docs hc with ⟨h1, h2⟩ | ⟨o, ti, docs, d, h1, -⟩
    · refine ⟨h1, ?_⟩
      rintro ⟨o, hr, hw⟩
      exact h2 o (hdel o name hr) hw
    · exact absurd h1 (hna o ti docs)
  cases r with
  | login ok => exact .inl (viaClient (.login ok) h (by simp) (by simp))
  | openPod ok => exact .inl (viaClient (.openPod ok) h (by simp) (by simp))
  | restart => exact .inl (viaClient .restart h (by simp) (by simp))
  | create o body =>
    refine .inl ?_
    simp only [serve, read] at h
    cases hb : Bodies.bind collOf body with
    | missing => rw [hb] at h; exact ⟨h, by rintro ⟨o', ho, -⟩; cases ho⟩
    | unreadable => rw [hb] at h; exact ⟨h, by rintro ⟨o', ho, -⟩; cases ho⟩
    | ok b =>
      rw [hb] at h
      simp only [handled, Rest.handle] at h
      split at h
      · exact ⟨h, by rintro ⟨o', ho, -⟩; cases ho⟩
      split at h
      · exact ⟨h, by rintro ⟨o', ho, -⟩; cases ho⟩
      split at h
      · exact ⟨h, by rintro ⟨o', ho, -⟩; cases ho⟩
      · exact viaClient _ h (by simp) (by simp)
  | delete o n => exact .inl (viaClient (.delete o n) h (by simp) (by simp))
  | list o => exact .inl (viaClient (.list o) h (by simp) (by simp))
  | add o body =>
    simp only [serve, read] at h
    cases hb : Bodies.bind addOf body with
    | missing => rw [hb] at h; exact .inl ⟨h, by rintro ⟨o', ho, -⟩; cases ho⟩
    | unreadable => rw [hb] at h; exact .inl ⟨h, by rintro ⟨o', ho, -⟩; cases ho⟩
    | ok b =>
      rw [hb] at h
      simp only [handled, Rest.handle] at h
      split at h
      · exact .inl ⟨h, by rintro ⟨o', ho, -⟩; cases ho⟩
      split at h
      · exact .inl ⟨h, by rintro ⟨o', ho, -⟩; cases ho⟩
      split at h
      · exact .inl ⟨h, by rintro ⟨o', ho, -⟩; cases ho⟩
      rename_i l hl
      split at h
      · exact .inl ⟨h, by rintro ⟨o', ho, -⟩; cases ho⟩
      rename_i ti hti
      split at h
      · exact .inl ⟨h, by rintro ⟨o', ho, -⟩; cases ho⟩
      rename_i ds hds
      rcases serve_docs h with ⟨h1, -⟩ | ⟨o', ti', docs, d, h1, h2, h3⟩
      · exact .inl ⟨h1, by rintro ⟨o', ho, -⟩; cases ho⟩
      · injection h1 with e1 e2 e3 e4
        subst e1 e3 e4
        obtain ⟨raw, hr1, hr2, hr3⟩ := readDocs_mem hds h2
        obtain ⟨ds0, hds0, rfl⟩ := Option.map_eq_some_iff.1 hl
        obtain ⟨x, hx, hxr⟩ := List.mem_map.1 hr1
        obtain ⟨db, rfl, rfl⟩ := Option.map_eq_some_iff.1 hxr
        simp only [rawDoc] at hr2 hr3
        split at hr3
        · rename_i p l hp
          simp only [Option.some.injEq] at hr3
          refine .inr ⟨db, l, ⟨o, body, b, ds0, rfl, hb, e2, hds0, hx, hp⟩, ?_⟩
          rw [hr2, hr3]
          exact h3
        · cases hr3
  | nearText o body =>
    refine .inl ?_
    simp only [serve, read] at h
    cases hb : Bodies.bind nearOf body with
    | missing => rw [hb] at h; exact ⟨h, by rintro ⟨o', ho, -⟩; cases ho⟩
    | unreadable => rw [hb] at h; exact ⟨h, by rintro ⟨o', ho, -⟩; cases ho⟩
    | ok b =>
      rw [hb] at h
      simp only [handled] at h
      split at h
      · exact ⟨h, by rintro ⟨o', ho, -⟩; cases ho⟩
      split at h
      · exact ⟨h, by rintro ⟨o', ho, -⟩; cases ho⟩
      · exact viaClient _ h (by simp) (by simp)
  | nearVector o body =>
    refine .inl ?_
    simp only [serve, read] at h
    cases hb : Bodies.bind vecOf body with
    | missing => rw [hb] at h; exact ⟨h, by rintro ⟨o', ho, -⟩; cases ho⟩
    | unreadable => rw [hb] at h; exact ⟨h, by rintro ⟨o', ho, -⟩; cases ho⟩
    | ok b =>
      rw [hb] at h
      simp only [handled] at h
      split at h
      · exact ⟨h, by rintro ⟨o', ho, -⟩; cases ho⟩
      split at h
      · exact ⟨h, by rintro ⟨o', ho, -⟩; cases ho⟩
      · exact viaClient _ h (by simp) (by simp)
  | get o sat n p v =>
    refine .inl ?_
    simp only [serve, read, handled] at h
    split at h
    · exact ⟨h, by rintro ⟨o', ho, -⟩; cases ho⟩
    · exact viaClient _ h (by simp) (by simp)

/-- what a request does to the world the client does for some request, or nothing happens -/
theorem step_client (E : Env Num Num) (uuid : Str → Bool) (odd : Option G → Text) (w : World Num) (r : TReq) :
    (serve E uuid odd w r).1 = w ∨ ∃ c : Req Num Num, (serve E uuid odd w r).1 = (Client.serve E w c).1 := by
  cases r with
  | login ok => exact .inr ⟨.login ok, rfl⟩
  | openPod ok => exact .inr ⟨.openPod ok, rfl⟩
  | restart => exact .inr ⟨.restart, rfl⟩
  | delete o n => exact .inr ⟨.delete o n, rfl⟩
  | list o => exact .inr ⟨.list o, rfl⟩
  | create o body =>
    simp only [serve, read]
    cases Bodies.bind collOf body with
    | missing => exact .inl rfl
    | unreadable => exact .inl rfl
    | ok b =>
      simp only [handled, Rest.handle]
      split
      · exact .inl rfl
      split
      · exact .inl rfl
      split
      · exact .inl rfl
      · exact .inr ⟨_, rfl⟩
  | add o body =>
    simp only [serve, read]
    cases Bodies.bind addOf body with
    | missing => exact .inl rfl
    | unreadable => exact .inl rfl
    | ok b =>
      simp only [handled, Rest.handle]
      split
      · exact .inl rfl
      split
      · exact .inl rfl
      split
      · exact .inl rfl
      split
      · exact .inl rfl
      split
      · exact .inl rfl
      · exact .inr ⟨_, rfl⟩
  | nearText o body =>
    simp only [serve, read]
    cases Bodies.bind nearOf body with
    | missing => exact .inl rfl
    | unreadable => exact .inl rfl
    | ok b =>
      simp only [handled]
      split
      · exact .inl rfl
      split
      · exact .inl rfl
      · exact .inr ⟨_, rfl⟩
  | nearVector o body =>
    simp only [serve, read]
    cases Bodies.bind vecOf body with
    | missing => exact .inl rfl
    | unreadable => exact .inl rfl
    | ok b =>
      simp only [handled]
      split
      · exact .inl rfl
      split
      · exact .inl rfl
      · exact .inr ⟨_, rfl⟩
  | get o sat n p v =>
    simp only [serve, read, handled]
    split
    · exact .inl rfl
    · exact .inr ⟨_, rfl⟩

/-- after any requests the world is as after some requests to the client -/
theorem run_client (E : Env Num Num) (uuid : Str → Bool) (odd : Option G → Text) (w : World Num) (rs : List TReq) :
    ∃ cs, run E uuid odd w rs = Client.run E w cs := by
  induction rs using List.reverseRecOn with
  | nil => exact ⟨[], rfl⟩
  | append_singleton rs r ih =>
    obtain ⟨cs, h⟩ := ih
    have e : run E uuid odd w (rs ++ [r]) = (serve E uuid odd (run E uuid odd w rs) r).1 := by simp [run]
    rw [e]
    rcases step_client E uuid odd (run E uuid odd w rs) r with h1 | ⟨c, h1⟩
    · exact ⟨cs, by rw [h1, h]⟩
    · exact ⟨cs ++ [c], by rw [h1, h]; simp [Client.run]⟩

theorem run_snoc (E : Env Num Num) (uuid : Str → Bool) (odd : Option G → Text) (w : World Num) (rs : List TReq) (r : TReq) :
    run E uuid odd w (rs ++ [r]) = (serve E uuid odd (run E uuid odd w rs) r).1 := by
  simp [run]

/-- every document in the pod was in the body of an earlier request, and the collection has not been deleted since -/
theorem run_docs (E : Env Num Num) (uuid : Str → Bool) (odd : Option G → Text) (w : World Num) (name : Text) (hf : w.docs (ns ++ name) = [])
    (rs : List TReq) (q : Props Num) (h : q ∈ (run E uuid odd w rs).docs (ns ++ name)) :
    ∃ d l, Told E uuid odd w rs name d l ∧ From E ⟨d.id, props l⟩ q := by
  induction rs using List.reverseRecOn with
  | nil => rw [show run E uuid odd w [] = w from rfl, hf] at h; cases h
  | append_singleton rs r ih =>
    rw [run_snoc] at h
    rcases step_docs h with ⟨h1, h2⟩ | ⟨d, l, h1, h2⟩
    · obtain ⟨d, l, ⟨pre, s, since, rfl, hs, hw⟩, hfr⟩ := ih h1
      refine ⟨d, l, ⟨pre, s, since ++ [r], by simp, hs, ?_⟩, hfr⟩
      intro a x b he
      rcases List.eq_nil_or_concat b with rfl | ⟨b', y, rfl⟩
      · have := List.append_inj' he rfl
        rw [← this.1]
        rw [List.cons.injEq] at this
        rw [← this.2.1]
        exact h2
      · have he' : since ++ [r] = (a ++ x :: b') ++ [y] := by simpa using he
        have := List.append_inj' he' rfl
        exact hw a x b' this.1
    · refine ⟨d, l, ⟨rs, r, [], rfl, h1, ?_⟩, h2⟩
      intro a x b he
      simp at he

end

end Fave.Texts
