import Verif.Lemmas.Notes
import Verif.Props.C82
/-!
# C84 — answers are JSON that says whether it worked, and the list of collections is right

*Every answer is one JSON value whose kind agrees with the status; a request is answered with 200 only if it was carried out; the list of collections, as a text, shows
exactly the collections that were created and not deleted since, with the indexes that were asked for; and sending its entries to another server creates the same
collections there.*

False in general: a database of another application is listed (`foreign_listed`), and so is a collection whose deletion failed in the storage and was answered with 200
(`failed_deletion_listed`); an index of type "bytes" is accepted and never shown (`bytes_not_listed`).
-/
namespace Fave.C84
open Json F32 Docs Bodies Client Texts Replies

section
variable [Dist Num] (E : Env Num Num) (uuid : Str → Bool) (odd : Option G → Text) (err : Text)

/-! ## Status and text -/

/-- **C84**: an answer of the handlers has the status 200 and a list or an object without a member "error", or the status 400 and an object whose only member
is "error", a list of objects the first of which has nothing but a message that is not empty.  The status 422, and texts that are not made by the handlers, occur only if
the request fails in the binding. -/
theorem one_value (w : World Num) (r : TReq) :
    answer E uuid odd err w r = .closed ∨
    (∃ t, answer E uuid odd err w r = .sent 200 (some t) ∧
      ((∃ l, parse t = some (.arr l)) ∨ ∃ l, parse t = some (.obj l) ∧ "error".toList ∉ l.map Prod.fst)) ∨
    (∃ t, answer E uuid odd err w r = .sent 400 (some t) ∧
      ∃ m l, m ≠ [] ∧ parse t = some (.obj [("error".toList, .arr (.obj [("message".toList, .str m)] :: l))]) ∧
        ∀ x ∈ l, x = .obj [] ∨ ∃ m, x = .obj [("message".toList, .str m)]) ∨
    ((answer E uuid odd err w r = .sent 400 none ∨ answer E uuid odd err w r = .sent 422 none) ∧ (Texts.serve E uuid odd w r).1 = w) := by
  have hbad : ∀ ms : List Text, (∃ m l, ms = m :: l ∧ m ≠ []) → ∃ m l, m ≠ [] ∧
      parse (line (errorJ ms)) = some (.obj [("error".toList, .arr (.obj [("message".toList, .str m)] :: l))]) ∧
      ∀ x ∈ l, x = .obj [] ∨ ∃ m, x = .obj [("message".toList, .str m)] := by
    rintro _ ⟨m, l, rfl, hm⟩
    refine ⟨m, l.map messageJ, hm, ?_, ?_⟩
    · rw [line, parse_line (errorJ_ok _)]
      simp only [errorJ, List.map_cons]
      have : messageJ m = .obj [(kMessage, .str m)] := by unfold messageJ nonEmpty; simp [hm]
      rw [this]
      rfl
    · intro x hx
      obtain ⟨m, -, rfl⟩ := List.mem_map.1 hx
      unfold messageJ nonEmpty
      split
      · exact .inl rfl
      · exact .inr ⟨m, rfl⟩
  have hfailed : ∃ m l, failed err r = m :: l ∧ m ≠ [] := by
    cases r <;> exact ⟨_, _, rfl, by simp⟩
  have hrefused : ∀ why, ∃ m l, refused err r why = m :: l ∧ m ≠ [] := by
    intro why
    cases why <;> first | exact hfailed | exact ⟨_, _, rfl, by decide⟩
  have hmsg : ∀ m, ∃ l, parse (line (messageJ m)) = some (.obj l) ∧ "error".toList ∉ l.map Prod.fst := by
    intro m
    refine ⟨_, by rw [line, parse_line (messageJ_ok _)]; rfl, ?_⟩
    unfold nonEmpty
    split
    · simp
    · simp only [List.map_cons, List.map_nil, List.mem_singleton]; decide
  by_cases hh : Http r
  · rw [answer_eq _ _ _ _ _ hh]
    have hr := replied E uuid odd w r
    have hw := serve_meant E uuid odd w r
    cases hm : meant uuid r with
    | none =>
      rw [hm] at hr hw
      generalize (Texts.serve E uuid odd w r).2 = rep at hr
      cases rep with
      | missing => exact .inr (.inr (.inr ⟨.inr rfl, hw⟩))
      | unreadable => exact .inr (.inr (.inr ⟨.inl rfl, hw⟩))
      | text a => exact hr.elim
      | plain a =>
        cases a with
        | bad why => exact .inr (.inr (.inl ⟨_, rfl, hbad _ (hrefused why)⟩))
        | unprocessable => exact .inr (.inr (.inr ⟨.inr rfl, hw⟩))
        | crash => exact .inl rfl
        | _ => exact hr.elim
    | some c =>
      rw [hm] at hr
      have hr : (Texts.serve E uuid odd w r).2 = reply odd c (Client.serve E w c).2 := hr
      have hplain : ∀ why, written err r (.plain (.bad why)) = .sent 400 (some (line (errorJ (refused err r why)))) := fun _ => rfl
      have href : ∀ e, (written err r (.plain (Rest.refusal e)) = .closed ∨ written err r (.plain (Rest.refusal e)) = .sent 400 (some (line (errorJ (refused err r .failed))))) := by
        intro e
        unfold Rest.refusal
        split
        · exact .inl rfl
        · exact .inr rfl
      have hok : ∀ (x : Rest.Resp Num Num) (a : Ans Num Num), written err r (.plain (Rest.okResp x a)) = written err r (.plain x) ∨
          written err r (.plain (Rest.okResp x a)) = .closed ∨ written err r (.plain (Rest.okResp x a)) = .sent 400 (some (line (errorJ (refused err r .failed)))) := by
        intro x a
        unfold Rest.okResp
        split
        · exact .inr (href _)
        · exact .inl rfl
      rw [hr]
      have fin400 : ∀ rep, (written err r rep = .closed ∨ written err r rep = .sent 400 (some (line (errorJ (refused err r .failed))))) → _ :=
        fun rep h => show written err r rep = .closed ∨ (∃ t, written err r rep = .sent 200 (some t) ∧
            ((∃ l, parse t = some (.arr l)) ∨ ∃ l, parse t = some (.obj l) ∧ "error".toList ∉ l.map Prod.fst)) ∨
          (∃ t, written err r rep = .sent 400 (some t) ∧
            ∃ m l, m ≠ [] ∧ parse t = some (.obj [("error".toList, .arr (.obj [("message".toList, .str m)] :: l))]) ∧
              ∀ x ∈ l, x = .obj [] ∨ ∃ m, x = .obj [("message".toList, .str m)]) ∨
          ((written err r rep = .sent 400 none ∨ written err r rep = .sent 422 none) ∧ (Texts.serve E uuid odd w r).1 = w) from by
          rcases h with h | h
          · exact .inl h
          · exact .inr (.inr (.inl ⟨_, h, hbad _ (hrefused .failed)⟩))
      have fine : ∀ a : Docs.Answer, (∀ u, a = .ok u → Fine u) → _ :=
        fun a ha => show written err r (.text a) = .closed ∨ (∃ t, written err r (.text a) = .sent 200 (some t) ∧
            ((∃ l, parse t = some (.arr l)) ∨ ∃ l, parse t = some (.obj l) ∧ "error".toList ∉ l.map Prod.fst)) ∨
          (∃ t, written err r (.text a) = .sent 400 (some t) ∧
            ∃ m l, m ≠ [] ∧ parse t = some (.obj [("error".toList, .arr (.obj [("message".toList, .str m)] :: l))]) ∧
              ∀ x ∈ l, x = .obj [] ∨ ∃ m, x = .obj [("message".toList, .str m)]) ∨
          ((written err r (.text a) = .sent 400 none ∨ written err r (.text a) = .sent 422 none) ∧ (Texts.serve E uuid odd w r).1 = w) from by
          cases a with
          | bad => exact .inr (.inr (.inl ⟨_, rfl, hbad _ hfailed⟩))
          | crash => exact .inl rfl
          | ok u => exact .inr (.inl ⟨u, rfl, .inr (ha u rfl)⟩)
      have hok' : ∀ (x : Rest.Resp Num Num) (a : Ans Num Num) m, written err r (.plain x) = .sent 200 (some (line (messageJ m))) → _ :=
        fun x a m hx => show written err r (.plain (Rest.okResp x a)) = .closed ∨ (∃ t, written err r (.plain (Rest.okResp x a)) = .sent 200 (some t) ∧
            ((∃ l, parse t = some (.arr l)) ∨ ∃ l, parse t = some (.obj l) ∧ "error".toList ∉ l.map Prod.fst)) ∨
          (∃ t, written err r (.plain (Rest.okResp x a)) = .sent 400 (some t) ∧
            ∃ m l, m ≠ [] ∧ parse t = some (.obj [("error".toList, .arr (.obj [("message".toList, .str m)] :: l))]) ∧
              ∀ x ∈ l, x = .obj [] ∨ ∃ m, x = .obj [("message".toList, .str m)]) ∨
          ((written err r (.plain (Rest.okResp x a)) = .sent 400 none ∨ written err r (.plain (Rest.okResp x a)) = .sent 422 none) ∧ (Texts.serve E uuid odd w r).1 = w) from by
          rcases hok x a with h | h
          · exact .inr (.inl ⟨_, h.trans hx, .inr (hmsg m)⟩)
          · exact fin400 _ h
      obtain ⟨m1, m2, m3⟩ := meant_http hh hm
      cases c with
      | login ok => exact absurd rfl (m2 ok)
      | openPod ok => exact absurd rfl (m3 ok)
      | restart => exact absurd rfl m1
      | create o n ix => exact hok' _ _ _ rfl
      | delete o n => exact hok' _ _ _ rfl
      | add o n ti docs => exact hok' _ _ _ rfl
      | list o =>
        cases hc : (Client.serve E w (.list o)).2 with
        | names l => exact .inr (.inl ⟨_, rfl, .inl ⟨_, parse_line (listed_ok _)⟩⟩)
        | failed e => exact fin400 _ (href e)
        | _ => exact fin400 _ (.inr rfl)
      | nearText o n q m l =>
        cases hc : (Client.serve E w (.nearText o n q m l)).2 with
        | near docs ds => exact fine _ fun u hu => found_fine hu
        | failed e => exact fin400 _ (href e)
        | _ => exact fin400 _ (.inr rfl)
      | nearVector o n q m l =>
        cases hc : (Client.serve E w (.nearVector o n q m l)).2 with
        | near docs ds => exact fine _ fun u hu => found_fine hu
        | failed e => exact fin400 _ (href e)
        | _ => exact fin400 _ (.inr rfl)
      | get o sat n p v =>
        cases hc : (Client.serve E w (.get o sat n p v)).2 with
        | doc p => exact fine _ fun u hu => lookedUp_fine hu
        | failed e => exact fin400 _ (href e)
        | _ => exact fin400 _ (.inr rfl)
  · left
    cases r <;> first | rfl | exact absurd trivial hh

/-- **C84**: a request is answered with 200 only if it got to the client and was carried out there; a creation, a deletion, an addition and a list that were carried out are
answered with 200. -/
theorem ok_means_done (w : World Num) (r : TReq) :
    (∀ t, answer E uuid odd err w r = .sent 200 t → ∃ c, meant uuid r = some c ∧ (Texts.serve E uuid odd w r).1 = (Client.serve E w c).1 ∧
      ∀ e, (Client.serve E w c).2 ≠ .failed e) ∧
    ((∃ o x, r = .create o x) ∨ (∃ o x, r = .delete o x) ∨ (∃ o x, r = .add o x) ∨ (∃ o, r = .list o) →
      ∀ c, meant uuid r = some c → (∀ e, (Client.serve E w c).2 ≠ .failed e) → ∃ t, answer E uuid odd err w r = .sent 200 t) := by
  constructor
  · intro t ht
    obtain ⟨c, hc, -, hne⟩ := sent_ok ht
    refine ⟨c, hc, ?_, hne⟩
    rw [serve_meant, hc]
  · intro hk c hc hne
    have hh : Http r := by
      rcases hk with ⟨o, x, rfl⟩ | ⟨o, x, rfl⟩ | ⟨o, x, rfl⟩ | ⟨o, rfl⟩ <;> trivial
    have hr := replied E uuid odd w r
    rw [hc] at hr
    have hr : (Texts.serve E uuid odd w r).2 = reply odd c (Client.serve E w c).2 := hr
    rw [answer_eq _ _ _ _ _ hh, hr]
    have hok : ∀ x : Rest.Resp Num Num, Rest.okResp x (Client.serve E w c).2 = x := by
      intro x
      unfold Rest.okResp
      split
      · rename_i e he; exact absurd he (hne e)
      · rfl
    have hcases : (∃ o n ix, c = .create o n ix) ∨ (∃ o n, c = .delete o n) ∨ (∃ o n ti docs, c = .add o n ti docs) ∨ ∃ o, c = .list o := by
      rcases hk with ⟨o, x, rfl⟩ | ⟨o, x, rfl⟩ | ⟨o, x, rfl⟩ | ⟨o, rfl⟩
      · simp only [meant] at hc
        split at hc
        · split at hc
          · cases hc
          · rename_i bd _ _
            cases hi : bd.indexes with
            | none => rw [hi] at hc; cases hc
            | some l =>
              rw [hi, Option.bind_some] at hc
              split at hc
              · cases hc; exact .inl ⟨_, _, _, rfl⟩
              · cases hc
        · cases hc
      · cases hc; exact .inr (.inl ⟨_, _, rfl⟩)
      · simp only [meant] at hc
        split at hc
        · split at hc
          · cases hc
          · rename_i bd _ _
            cases hi : bd.docs with
            | none => rw [hi] at hc; cases hc
            | some l =>
              rw [hi, Option.bind_some] at hc
              split at hc
              · cases hc
              · obtain ⟨ti, -, rfl⟩ := Option.map_eq_some_iff.1 hc
                exact .inr (.inr (.inl ⟨_, _, _, _, rfl⟩))
        · cases hc
      · cases hc; exact .inr (.inr (.inr ⟨_, rfl⟩))
    rcases hcases with ⟨o, n, ix, rfl⟩ | ⟨o, n, rfl⟩ | ⟨o, n, ti, docs, rfl⟩ | ⟨o, rfl⟩
    · simp only [reply, hok]; exact ⟨_, rfl⟩
    · simp only [reply, hok]; exact ⟨_, rfl⟩
    · simp only [reply, hok]; exact ⟨_, rfl⟩
    · cases hl : Client.list o w with
      | error e => exact absurd (show (Client.serve E w (.list o)).2 = .failed e by simp only [Client.serve, hl]) (hne e)
      | ok l =>
        have : (Client.serve E w (.list o)).2 = .names l := by simp only [Client.serve, hl]
        rw [this]
        exact ⟨_, rfl⟩

/-! ## The list of collections -/

/-- the list in terms of the client's book -/
theorem list_cases {dbs : Map (Db Num)} (hn : dbs.keys.Nodup) (hf : ∀ k ∈ dbs.keys, stripPrefix ns k = none) {lookup : Bool} {rs : List TReq}
    (hrs : ∀ r ∈ rs, Steady r) {o : Oracle Num Num} {t : Text}
    (h : answer E uuid odd err (Texts.run E uuid odd (World.fresh lookup dbs) rs) (.list o) = .sent 200 (some t)) :
    ∃ l : List (Str × Map IxType), (l.map Prod.fst).Nodup ∧
      (∀ n ix, (n, ix) ∈ l ↔ C21.books E (World.fresh lookup dbs) (fun _ => none) (rs.filterMap (meant uuid)) n = some ix) ∧
      t = line (.arr (l.map fun c => listedJ (c.1, c.2.filterMap (fun e => (Rest.typeName e.2).map (fun t => (e.1, t)))))) := by
  obtain ⟨c, hc, hrep, hne⟩ := sent_ok h
  cases hc
  rw [run_meant] at h hrep hne
  generalize hw : Client.run E (World.fresh lookup dbs) (rs.filterMap (meant uuid)) = w at h hrep hne
  cases hl : Client.list o w with
  | error e => exact absurd (show (Client.serve E w (.list o)).2 = .failed e by simp only [Client.serve, hl]) (hne e)
  | ok l =>
    have hs : (Client.serve E w (.list o)).2 = .names l := by simp only [Client.serve, hl]
    obtain ⟨h1, h2⟩ := C21.listing_exact_partial E lookup dbs hn hf _ (steady_sound hrs) o l (by rw [hw]; exact hs)
    refine ⟨l, h1, h2, ?_⟩
    rw [answer_eq _ _ _ _ _ (by trivial), hrep, hs] at h
    simp only [reply, written, Out.sent.injEq, Option.some.injEq, true_and, List.map_map] at h
    rw [← h]
    rfl

theorem tallies_start : Tallies (fun _ => none) (fun _ => none) := ⟨fun _ => rfl, fun _ _ h => by cases h⟩

/-- **C84**, the list of collections: on a pod without databases whose names begin like those of collections, after any requests of all kinds whose creations and
deletions do not fail half-way in the storage, a list that is answered with 200 is a JSON array of collections, no name twice, and they are exactly those that were
created (status 200) and not deleted since (status 200), each with exactly the indexes of the body that created it and the number index "hnswId". -/
theorem list_exact_partial {dbs : Map (Db Num)} (hn : dbs.keys.Nodup) (hf : ∀ k ∈ dbs.keys, stripPrefix ns k = none) {lookup : Bool} {rs : List TReq}
    (hrs : ∀ r ∈ rs, Steady r) {o : Oracle Num Num} {t : Text}
    (h : answer E uuid odd err (Texts.run E uuid odd (World.fresh lookup dbs) rs) (.list o) = .sent 200 (some t)) :
    Lists t (notes E uuid odd err (World.fresh lookup dbs) (fun _ => none) rs) := by
  obtain ⟨l, h1, h2, rfl⟩ := list_cases E uuid odd err hn hf hrs h
  have ht := tallies_run (E := E) (uuid := uuid) (odd := odd) (err := err) rs (w := World.fresh lookup dbs) tallies_start
  generalize C21.books E (World.fresh lookup dbs) (fun _ => none) (rs.filterMap (meant uuid)) = b at h2 ht
  generalize notes E uuid odd err (World.fresh lookup dbs) (fun _ => none) rs = s at ht
  refine ⟨l.map fun c => listedJ (c.1, c.2.filterMap (fun e => (Rest.typeName e.2).map (fun t => (e.1, t)))), l.map fun c => (c.1, (c.2.filterMap (fun e => (Rest.typeName e.2).map (fun t => (e.1, t)))).map (fun e => (⟨e.1, e.2⟩ : IndexB))), ?_, ?_, ?_, ?_, ?_⟩
  · have := listed_ok (l.map fun c => (c.1, c.2.filterMap (fun e => (Rest.typeName e.2).map (fun t => (e.1, t)))))
    rw [List.map_map] at this
    exact parse_line this
  · simp only [List.map_map]
    refine List.map_congr_left fun c _ => ?_
    simp only [Function.comp, listedJ, collOf_collJ, List.map_map]
    rfl
  · rw [List.map_map]; exact h1
  · intro n
    rw [ht.same, Ne, Option.map_eq_none_iff]
    constructor
    · rintro ⟨c, hc, rfl⟩
      obtain ⟨⟨k, ix⟩, hk, rfl⟩ := List.mem_map.1 hc
      rw [(h2 k ix).1 hk]; simp
    · intro hx
      cases hb : b n with
      | none => exact absurd hb hx
      | some ix => exact ⟨_, List.mem_map.2 ⟨(n, ix), (h2 n ix).2 hb, rfl⟩, rfl⟩
  · intro c hc g hg
    obtain ⟨⟨k, ix⟩, hk, rfl⟩ := List.mem_map.1 hc
    have hb := (h2 k ix).1 hk
    rw [ht.same, hb] at hg
    cases hg
    exact ⟨nodup_types (ht.good k ix hb).1, fun f ty => mem_types (ht.good k ix hb).1 f ty⟩

/-- **C84**, copying: send the entries of that list one by one, as they are, to another server (another pod, another state of its storage, as long as nothing fails
there); its list then shows the same collections with the same indexes. -/
theorem copied_partial {dbs : Map (Db Num)} (hn : dbs.keys.Nodup) (hf : ∀ k ∈ dbs.keys, stripPrefix ns k = none) {lookup : Bool} {rs : List TReq}
    (hrs : ∀ r ∈ rs, Steady r) {o : Oracle Num Num} {t : Text}
    (h : answer E uuid odd err (Texts.run E uuid odd (World.fresh lookup dbs) rs) (.list o) = .sent 200 (some t))
    {js : List J} (hjs : parse t = some (.arr js)) {E' : Env Num Num} {uuid' : Str → Bool} {odd' : Option G → Text} {err' : Text}
    {dbs' : Map (Db Num)} (hn' : dbs'.keys.Nodup) (hf' : ∀ k ∈ dbs'.keys, stripPrefix ns k = none) {lookup' : Bool} {o' o'' : Oracle Num Num}
    (ho' : o'.docCreate = false ∧ o'.createTable = false ∧ o'.docOpen = false ∧ o'.openTable = false ∧ o'.newIndex = false) {t' : Text}
    (h' : answer E' uuid' odd' err' (Texts.run E' uuid' odd' (World.fresh lookup' dbs')
      ([.login true, .openPod true] ++ js.map fun j => .create o' (render false j))) (.list o'') = .sent 200 (some t')) :
    Lists t' (notes E uuid odd err (World.fresh lookup dbs) (fun _ => none) rs) := by
  obtain ⟨l, h1, h2, rfl⟩ := list_cases E uuid odd err hn hf hrs h
  have ht := tallies_run (E := E) (uuid := uuid) (odd := odd) (err := err) rs (w := World.fresh lookup dbs) tallies_start
  generalize C21.books E (World.fresh lookup dbs) (fun _ => none) (rs.filterMap (meant uuid)) = b at h2 ht
  generalize notes E uuid odd err (World.fresh lookup dbs) (fun _ => none) rs = s at ht
  have hok := listed_ok (l.map fun c => (c.1, c.2.filterMap (fun e => (Rest.typeName e.2).map (fun t => (e.1, t)))))
  rw [List.map_map] at hok
  have hjs' : js = l.map fun c => listedJ (c.1, c.2.filterMap (fun e => (Rest.typeName e.2).map (fun t => (e.1, t)))) := by
    have := (parse_line hok).symm.trans hjs
    simp only [Option.some.injEq, J.arr.injEq] at this
    exact this.symm
  subst hjs'
  have hl := list_exact_partial E' uuid' odd' err' hn' hf' (by
    intro r hr
    rcases List.mem_append.1 hr with hr | hr
    · simp only [List.mem_cons, List.not_mem_nil, or_false] at hr
      rcases hr with rfl | rfl <;> trivial
    · obtain ⟨j, -, rfl⟩ := List.mem_map.1 hr
      exact .inr ho'.2) h'
  suffices hs : notes E' uuid' odd' err' (World.fresh lookup' dbs') (fun _ => none) ([.login true, .openPod true] ++ (l.map fun c =>
      listedJ (c.1, c.2.filterMap (fun e => (Rest.typeName e.2).map (fun t => (e.1, t))))).map fun j => .create o' (render false j)) = s by
    rw [← hs]; exact hl
  let bs : List (Text × List IndexB) := l.map fun c => (c.1, (c.2.filterMap (fun e => (Rest.typeName e.2).map (fun t => (e.1, t)))).map (fun e => (⟨e.1, e.2⟩ : IndexB)))
  have hbs : ((l.map fun c => listedJ (c.1, c.2.filterMap (fun e => (Rest.typeName e.2).map (fun t => (e.1, t))))).map fun j => TReq.create o' (render false j)) =
      bs.map fun b => .create o' (render false (collJ ⟨some (b.2.map some), b.1⟩)) := by
    simp only [bs, List.map_map]
    refine List.map_congr_left fun c _ => ?_
    simp only [Function.comp, listedJ, List.map_map]
    rfl
  rw [hbs]
  have hbn : (bs.map Prod.fst).Nodup := by simp only [bs, List.map_map]; exact h1
  have hmem : ∀ c ∈ bs, ∃ ix, b c.1 = some ix ∧ c.2 = (ix.filterMap (fun e => (Rest.typeName e.2).map (fun t => (e.1, t)))).map (fun e => (⟨e.1, e.2⟩ : IndexB)) := by
    intro c hc
    obtain ⟨⟨k, ix⟩, hk, rfl⟩ := List.mem_map.1 hc
    exact ⟨ix, (h2 k ix).1 hk, rfl⟩
  have hty : ∀ (ix : Map IxType), ∀ i ∈ (ix.filterMap (fun e => (Rest.typeName e.2).map (fun t => (e.1, t)))).map (fun e => (⟨e.1, e.2⟩ : IndexB)),
      ∃ x, Rest.ixType i.fieldType = some (some x) := by
    intro ix i hi
    obtain ⟨y, hy, rfl⟩ := List.mem_map.1 hi
    obtain ⟨z, -, hz⟩ := List.mem_filterMap.1 hy
    obtain ⟨t, ht, rfl⟩ := Option.map_eq_some_iff.1 hz
    exact ⟨_, typeName_known ht⟩
  obtain ⟨n1, n2⟩ := notes_creates (E := E') (uuid := uuid') (odd := odd') (err := err') ho' bs (fun c hc => by
    obtain ⟨ix, hb, he⟩ := hmem c hc
    refine ⟨(ht.good _ _ hb).2.1, fun i hi => ?_⟩
    rw [he] at hi
    obtain ⟨x, hx⟩ := hty ix i hi
    rw [hx]; simp) hbn (w := (Client.openPod true (Client.login true (World.fresh lookup' dbs')).1).1) rfl rfl (s := fun _ => none) (fun _ _ => rfl)
  have hstart : ∀ rs, notes E' uuid' odd' err' (World.fresh lookup' dbs') (fun _ => none) ([.login true, .openPod true] ++ rs) =
      notes E' uuid' odd' err' (Client.openPod true (Client.login true (World.fresh lookup' dbs')).1).1 (fun _ => none) rs := fun rs => rfl
  rw [hstart]
  funext n
  by_cases hin : n ∈ bs.map Prod.fst
  · obtain ⟨c, hc, rfl⟩ := List.mem_map.1 hin
    rw [n1 c hc]
    obtain ⟨ix, hb, he⟩ := hmem c hc
    rw [ht.same, hb, he]
    have good := ht.good _ _ hb
    simp only [Option.map_some, Option.some.injEq]
    funext f
    unfold indexes
    have hk : "hnswId".toList = hnswName := by decide
    rw [hk]
    split
    · rename_i e
      subst e
      unfold types
      rw [good.2.2]; decide
    · rw [asked_mem (nodup_types good.1) (fun i hi e => by
        obtain ⟨x, hx⟩ := hty ix i hi
        rw [e, ixType_none.2 rfl] at hx
        cases hx)]
      apply Option.ext
      intro ty
      rw [find_mem (nodup_types good.1), mem_types good.1]
  · rw [n2 n hin, ht.same]
    cases hb : b n with
    | none => rfl
    | some ix => exact absurd (List.mem_map.2 ⟨_, List.mem_map.2 ⟨(n, ix), (h2 n ix).2 hb, rfl⟩, rfl⟩) hin

end

/-! ## Cases -/

local instance : Dist Num := numDist

def creatingFilms : Text :=
  "{\"name\":\"films\",\"indexes\":[{\"fieldName\":\"year\",\"fieldType\":\"number\"},{\"fieldName\":\"title\",\"fieldType\":\"string\"}]}".toList
def creatingBooks : Text :=
  "{\"name\":\"books\",\"indexes\":[{\"fieldName\":\"year\",\"fieldType\":\"number\"}]}".toList
def creatingCovers : Text :=
  "{\"name\":\"covers\",\"indexes\":[{\"fieldName\":\"image\",\"fieldType\":\"bytes\"}]}".toList
def said (w : World Num) (r : TReq) : Out := answer C66.E C82.uuid C82.odd "no".toList w r
def after (dbs : Map (Db Num)) (rs : List TReq) : World Num := Texts.run C66.E C82.uuid C82.odd (World.fresh true dbs) rs
def story : List TReq := C82.story ++ [.create (C66.oracle []) creatingFilms, .delete (C66.oracle []) C66.books, .create (C66.oracle []) creatingCovers]
def listed : Text :=
  "[{\"indexes\":[{\"fieldName\":\"year\",\"fieldType\":\"number\"},{\"fieldName\":\"title\",\"fieldType\":\"string\"},{\"fieldName\":\"hnswId\",\"fieldType\":\"number\"}],\"name\":\"films\"},{\"indexes\":[{\"fieldName\":\"hnswId\",\"fieldType\":\"number\"}],\"name\":\"covers\"}]\n".toList

-- books are created, filled and deleted, films and covers created: the list shows the latter two
example : said (after [] story) (.list (C66.oracle [])) = .sent 200 (some listed) := by decide +kernel
example : ∀ r ∈ story, Steady r := by
  intro r hr
  simp only [story, C82.story, C82.opened, List.cons_append, List.nil_append, List.mem_cons, List.not_mem_nil, or_false] at hr
  rcases hr with rfl | rfl | rfl | rfl | rfl | rfl | rfl
  · trivial
  · trivial
  · exact .inr ⟨rfl, rfl, rfl, rfl⟩
  · trivial
  · exact .inr ⟨rfl, rfl, rfl, rfl⟩
  · rfl
  · exact .inr ⟨rfl, rfl, rfl, rfl⟩
-- sent to another server, its entries make the same list
example : ∃ js, parse listed = some (.arr js) ∧ js.length = 2 ∧
    said (after [] ([.login true, .openPod true] ++ js.map fun j => .create (C66.oracle []) (render false j))) (.list (C66.oracle [])) = .sent 200 (some listed) := by
  have h : ∀ o : Option J, (match o with
        | some (.arr js) => decide (js.length = 2 ∧
          said (after [] ([.login true, .openPod true] ++ js.map fun j => .create (C66.oracle []) (render false j))) (.list (C66.oracle [])) = .sent 200 (some listed))
        | _ => false) = true → ∃ js, o = some (.arr js) ∧ js.length = 2 ∧
      said (after [] ([.login true, .openPod true] ++ js.map fun j => .create (C66.oracle []) (render false j))) (.list (C66.oracle [])) = .sent 200 (some listed) := by
    intro o
    split
    · intro h; exact ⟨_, rfl, of_decide_eq_true h⟩
    · intro h; cases h
  exact h _ (by decide +kernel)
-- the words of some answers
example : said (after [] C82.opened) (.add (C66.oracle [C66.xy 1 0]) C82.adding) = .sent 200 (some "{\"message\":\"Added 1 documents\"}\n".toList) ∧
    said (after [] C82.opened) (.create (C66.oracle []) "{\"indexes\":[]}".toList) =
      .sent 400 (some "{\"error\":[{\"message\":\"Collection name cannot be blank\"}]}\n".toList) ∧
    said (after [] C82.opened) (.create (C66.oracle []) "{\"name\":\"x\",\"indexes\":[null]}".toList) = .closed ∧
    said (after [] C82.opened) (.create (C66.oracle []) []) = .sent 422 none ∧
    said (after [] C82.opened) (.create (C66.oracle []) ['{']) = .sent 400 none ∧
    said (after [] []) (.list (C66.oracle [])) = .sent 400 (some "{\"error\":[{\"message\":\"Failed to get collections\"}]}\n".toList) := by decide +kernel

/-! ## What is false -/

/-- a database of another application is listed as a collection, although nothing was created; one that has nothing but the prefix as its name is shown without a name, and
cannot be created again from what is shown -/
theorem foreign_listed :
    said (after [("fave_x".toList, ⟨[], []⟩), ("fave_".toList, ⟨[], []⟩)] [.login true, .openPod true]) (.list (C66.oracle [])) =
      .sent 200 (some "[{\"indexes\":[],\"name\":\"x\"},{\"indexes\":[]}]\n".toList) ∧
    said (after [] [.login true, .openPod true]) (.create (C66.oracle []) "{\"indexes\":[]}".toList) =
      .sent 400 (some "{\"error\":[{\"message\":\"Collection name cannot be blank\"}]}\n".toList) := by decide +kernel

/-- a deletion that fails in the storage is answered with "Collection deleted", and the collection stays in the list -/
theorem failed_deletion_listed :
    said (after [] C82.opened) (.delete { C66.oracle [] with docDelete := true } C66.books) = .sent 200 (some "{\"message\":\"Collection deleted\"}\n".toList) ∧
    said (after [] (C82.opened ++ [.delete { C66.oracle [] with docDelete := true } C66.books])) (.list (C66.oracle [])) =
      .sent 200 (some "[{\"indexes\":[{\"fieldName\":\"hnswId\",\"fieldType\":\"number\"}],\"name\":\"books\"}]\n".toList) := by decide +kernel

/-- an index of type "bytes" is accepted and never shown -/
theorem bytes_not_listed :
    said (after [] [.login true, .openPod true]) (.create (C66.oracle []) creatingCovers) = .sent 200 (some "{\"message\":\"Collection created\"}\n".toList) ∧
    said (after [] [.login true, .openPod true, .create (C66.oracle []) creatingCovers]) (.list (C66.oracle [])) =
      .sent 200 (some "[{\"indexes\":[{\"fieldName\":\"hnswId\",\"fieldType\":\"number\"}],\"name\":\"covers\"}]\n".toList) := by decide +kernel

/-- creating a collection that is there already is answered with "Collection created", though nothing is created and the indexes asked for are ignored -/
theorem creation_again_says_created :
    said (after [] C82.opened) (.create (C66.oracle []) creatingBooks) = .sent 200 (some "{\"message\":\"Collection created\"}\n".toList) ∧
    said (after [] (C82.opened ++ [.create (C66.oracle []) creatingBooks])) (.list (C66.oracle [])) =
      .sent 200 (some "[{\"indexes\":[{\"fieldName\":\"hnswId\",\"fieldType\":\"number\"}],\"name\":\"books\"}]\n".toList) := by decide +kernel

end Fave.C84
