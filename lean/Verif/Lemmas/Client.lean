import Verif.Model.Client
/-! # Lemmas on the document client: maps, frames -/
namespace Fave.Client
variable {F D : Type} [Dist D]

namespace Map
variable {α : Type}

@[simp] theorem get_nil (k : Str) : get ([] : Map α) k = none := rfl

theorem get_cons (e : Str × α) (m : Map α) (k : Str) : get (e :: m) k = if e.1 = k then some e.2 else get m k := by
  unfold get
  by_cases h : e.1 = k
  · simp [h]
  · simp [h]

theorem get_append (m m' : Map α) (k : Str) : get (m ++ m') k = (get m k).or (get m' k) := by
  induction m with
  | nil => simp
  | cons e m ih =>
    rw [List.cons_append, get_cons, get_cons, ih]
    by_cases h : e.1 = k
    · simp [h]
    · simp [h]

theorem get_del (m : Map α) (k j : Str) : get (m.del k) j = if j = k then none else get m j := by
  induction m with
  | nil => simp [del]
  | cons e m ih =>
    unfold del at ih ⊢
    rw [List.filter_cons, get_cons]
    by_cases h : e.1 = k
    · simp only [h, ne_eq, not_true_eq_false, decide_false, Bool.false_eq_true, if_false, ih]
      by_cases hj : j = k
      · simp [hj]
      · simp [hj, Ne.symm hj]
    · simp only [ne_eq, h, not_false_eq_true, decide_true, if_true, get_cons, ih]
      by_cases hj : e.1 = j
      · subst hj; simp [h]
      · simp [hj]

theorem get_set (m : Map α) (k j : Str) (v : α) : get (m.set k v) j = if j = k then some v else get m j := by
  unfold set
  rw [get_append, get_del, get_cons]
  by_cases h : j = k
  · simp [h]
  · simp [h, Ne.symm h]

@[simp] theorem get_set_self (m : Map α) (k : Str) (v : α) : get (m.set k v) k = some v := by simp [get_set]

theorem mem_of_get {m : Map α} {k : Str} {v : α} (h : get m k = some v) : (k, v) ∈ m := by
  induction m with
  | nil => simp at h
  | cons e m ih =>
    rw [get_cons] at h
    by_cases he : e.1 = k
    · rw [if_pos he] at h; cases h; subst he; simp
    · rw [if_neg he] at h; exact List.mem_cons_of_mem _ (ih h)

theorem get_of_mem {m : Map α} (hn : m.keys.Nodup) {k : Str} {v : α} (h : (k, v) ∈ m) : get m k = some v := by
  induction m with
  | nil => simp at h
  | cons e m ih =>
    rw [get_cons]
    simp only [keys, List.map_cons, List.nodup_cons] at hn
    rcases List.mem_cons.mp h with rfl | h
    · simp
    · have : e.1 ≠ k := by
        intro he
        exact hn.1 (he ▸ List.mem_map_of_mem (f := Prod.fst) h)
      rw [if_neg this]; exact ih hn.2 h

theorem get_isSome {m : Map α} {k : Str} : (get m k).isSome ↔ k ∈ m.keys := by
  induction m with
  | nil => simp [keys]
  | cons e m ih =>
    rw [get_cons]
    simp only [keys, List.map_cons, List.mem_cons] at *
    by_cases he : e.1 = k
    · simp [he]
    · rw [if_neg he, ih]
      constructor
      · exact .inr
      · rintro (h | h)
        · exact absurd h.symm he
        · exact h

/-- updating the value of one key in place -/
theorem get_mapAt (m : Map α) (c : Str) (g : α → α) (k : Str) :
    get (m.map (fun e => if e.1 = c then (c, g e.2) else e)) k = if k = c then (get m c).map g else get m k := by
  induction m with
  | nil => simp
  | cons e m ih =>
    rw [List.map_cons, get_cons, ih, get_cons, get_cons]
    by_cases he : e.1 = c
    · subst he
      by_cases hk : k = e.1
      · subst hk; simp
      · simp [hk, Ne.symm hk]
    · simp only [if_neg he]
      by_cases hk : k = c
      · subst hk; simp [he]
      · simp [hk]

theorem keys_mapAt (m : Map α) (c : Str) (g : α → α) : keys (m.map (fun e => if e.1 = c then (c, g e.2) else e)) = m.keys := by
  unfold keys
  rw [List.map_map]
  apply List.map_congr_left
  intro e _
  simp only [Function.comp]
  by_cases he : e.1 = c
  · rw [if_pos he, he]
  · rw [if_neg he]

theorem keys_del (m : Map α) (k : Str) : keys (m.del k) = m.keys.filter (fun x => x ≠ k) := by
  unfold keys del
  rw [List.filter_map]; rfl

end Map

/-! ## Frames -/

/-- the two states agree on everything a request about the (prefixed) name `c` looks at -/
structure SameFor (w w' : World F) (c : Str) : Prop where
  session : w'.session = w.session
  pod : w'.pod = w.pod
  lookup : w'.lookup = w.lookup
  coll : w'.coll c = w.coll c
  db : w'.dbs.get c = w.dbs.get c

theorem SameFor.refl (w : World F) (c : Str) : SameFor w w c := ⟨rfl, rfl, rfl, rfl, rfl⟩
theorem SameFor.symm {w w' : World F} {c : Str} (h : SameFor w w' c) : SameFor w' w c :=
  ⟨h.session.symm, h.pod.symm, h.lookup.symm, h.coll.symm, h.db.symm⟩
theorem SameFor.trans {w w' w'' : World F} {c : Str} (h : SameFor w w' c) (h' : SameFor w' w'' c) : SameFor w w'' c :=
  ⟨h'.session.trans h.session, h'.pod.trans h.pod, h'.lookup.trans h.lookup, h'.coll.trans h.coll, h'.db.trans h.db⟩

/-- only what belongs to the name `c` differs -/
structure OnlyAt (c : Str) (w w' : World F) : Prop where
  session : w'.session = w.session
  pod : w'.pod = w.pod
  lookup : w'.lookup = w.lookup
  coll : ∀ n, n ≠ c → w'.coll n = w.coll n
  db : ∀ n, n ≠ c → w'.dbs.get n = w.dbs.get n

theorem OnlyAt.refl (c : Str) (w : World F) : OnlyAt c w w := ⟨rfl, rfl, rfl, fun _ _ => rfl, fun _ _ => rfl⟩
theorem OnlyAt.trans {c : Str} {w w' w'' : World F} (h : OnlyAt c w w') (h' : OnlyAt c w' w'') : OnlyAt c w w'' :=
  ⟨h'.session.trans h.session, h'.pod.trans h.pod, h'.lookup.trans h.lookup, fun n hn => (h'.coll n hn).trans (h.coll n hn),
   fun n hn => (h'.db n hn).trans (h.db n hn)⟩
theorem OnlyAt.same {c : Str} {w w' : World F} (h : OnlyAt c w w') {n : Str} (hn : n ≠ c) : SameFor w w' n :=
  ⟨h.session, h.pod, h.lookup, h.coll n hn, h.db n hn⟩

theorem onlyAt_setColl (w : World F) (c : Str) (x : Coll F) : OnlyAt c w (w.setColl c x) :=
  ⟨rfl, rfl, rfl, fun n hn => by simp [World.setColl, hn], fun _ _ => rfl⟩

@[simp] theorem setColl_self (w : World F) (c : Str) (x : Coll F) : (w.setColl c x).coll c = x := by simp [World.setColl]
@[simp] theorem setColl_session (w : World F) (c : Str) (x : Coll F) : (w.setColl c x).session = w.session := rfl
@[simp] theorem setColl_pod (w : World F) (c : Str) (x : Coll F) : (w.setColl c x).pod = w.pod := rfl
@[simp] theorem setColl_lookup (w : World F) (c : Str) (x : Coll F) : (w.setColl c x).lookup = w.lookup := rfl
@[simp] theorem setColl_dbs (w : World F) (c : Str) (x : Coll F) : (w.setColl c x).dbs = w.dbs := rfl
@[simp] theorem setColl_setColl (w : World F) (c : Str) (x y : Coll F) : (w.setColl c x).setColl c y = w.setColl c y := by
  unfold World.setColl
  congr 1
  funext n
  by_cases h : n = c <;> simp [h]
theorem setColl_same (w : World F) (c : Str) : w.setColl c (w.coll c) = w := by
  unfold World.setColl
  cases w
  congr 1
  funext n
  by_cases h : n = c <;> simp [h]

theorem onlyAt_withDb (w : World F) (c : Str) (ix : Map IxType) : OnlyAt c w (w.withDb c ix) := by
  unfold World.withDb
  split
  · exact .refl _ _
  · refine ⟨rfl, rfl, rfl, fun _ _ => rfl, fun n hn => ?_⟩
    show Map.get (w.dbs ++ _) n = _
    rw [Map.get_append, Map.get_cons]
    simp [Ne.symm hn]

theorem onlyAt_create (o : Oracle F D) (w : World F) (name : Str) (ix : Map IxType) : OnlyAt (ns ++ name) w (create o w name ix).1 := by
  unfold create
  by_cases h1 : (!w.session) = true
  · rw [if_pos h1]; exact .refl _ _
  rw [if_neg h1]
  by_cases h2 : (!w.pod) = true
  · rw [if_pos h2]; exact .refl _ _
  rw [if_neg h2]
  by_cases h3 : o.docCreate = true
  · simp only [h3, if_true]; exact .refl _ _
  simp only [h3, if_false, Bool.false_eq_true]
  have hw := onlyAt_withDb w (ns ++ name) (ix.set hnswName .number)
  generalize w.withDb (ns ++ name) (ix.set hnswName .number) = w1 at hw
  by_cases h4 : o.createTable = true
  · simp only [h4, if_true]; exact hw
  simp only [h4, if_false, Bool.false_eq_true, setColl_self, setColl_setColl]
  split
  · exact hw.trans (onlyAt_setColl ..)
  · split
    · exact hw.trans (onlyAt_setColl ..)
    · split
      · exact hw.trans (onlyAt_setColl ..)
      · exact hw.trans (onlyAt_setColl ..)

theorem onlyAt_delete (o : Oracle F D) (w : World F) (name : Str) : OnlyAt (ns ++ name) w (delete o w name).1 := by
  unfold delete
  by_cases h1 : (!w.session) = true
  · rw [if_pos h1]; exact .refl _ _
  rw [if_neg h1]
  by_cases h2 : (!w.pod) = true
  · rw [if_pos h2]; exact .refl _ _
  rw [if_neg h2]
  have hd : ∀ (x : Coll F), OnlyAt (ns ++ name) w { (w.setColl (ns ++ name) x) with dbs := w.dbs.del (ns ++ name) } := by
    intro x
    refine ⟨rfl, rfl, rfl, fun n hn => by simp [World.setColl, hn], fun n hn => ?_⟩
    show Map.get (Map.del _ _) n = _
    rw [Map.get_del, if_neg hn]
  by_cases h3 : o.docDelete = true <;> by_cases h4 : o.deleteTable = true
  all_goals simp only [h3, h4, if_true, if_false, Bool.false_eq_true]
  · exact onlyAt_setColl ..
  · simp only [setColl_setColl]; exact onlyAt_setColl ..
  · exact (hd _).trans (onlyAt_setColl ..)
  · exact ((hd _).trans (onlyAt_setColl ..)).trans (onlyAt_setColl ..)

theorem onlyAt_ensureOpen (o : Oracle F D) (w : World F) (c : Str) : OnlyAt c w (ensureOpen o w c).1 := by
  unfold ensureOpen
  split
  · exact .refl _ _
  split
  · exact .refl _ _
  simp only [setColl_self, setColl_setColl, setColl_session, setColl_dbs]
  split
  · exact onlyAt_setColl ..
  split
  · exact onlyAt_setColl ..
  split
  · exact onlyAt_setColl ..
  split
  · exact onlyAt_setColl ..
  · exact onlyAt_setColl ..

theorem onlyAt_addFinish [DecidableEq F] (E : Env F D) (o : Oracle F D) (w : World F) (name : Str) (ti : List Str)
    (docs : List (Option (Doc F))) (n : Nat) : OnlyAt (ns ++ name) w (addFinish E o w name ti docs n).1 := by
  have key : ∀ (x : Coll F) (ds : List (Props F)), OnlyAt (ns ++ name) w { (w.setColl (ns ++ name) x) with
      dbs := w.dbs.map (fun e => if e.1 = ns ++ name then (ns ++ name, { e.2 with docs := ds }) else e) } := by
    intro x ds
    refine ⟨rfl, rfl, rfl, fun n hn => by simp [World.setColl, hn], fun n hn => ?_⟩
    show Map.get (List.map _ _) n = _
    rw [Map.get_mapAt w.dbs (ns ++ name) (fun d => { d with docs := ds }), if_neg hn]
  unfold addFinish
  simp only []
  split
  · exact key _ _
  · split
    · exact (key _ _).trans (onlyAt_setColl ..)
    · exact (key _ _).trans (onlyAt_setColl ..)

theorem onlyAt_addBegin (o : Oracle F D) (w : World F) (name : Str) : OnlyAt (ns ++ name) w (addBegin o w name).1 := by
  have := onlyAt_ensureOpen o w (ns ++ name)
  unfold addBegin
  simp only []
  split
  · rename_i w1 e h; rw [h] at this; exact this
  · rename_i w1 h
    rw [h] at this
    split <;> exact this

theorem onlyAt_add [DecidableEq F] (E : Env F D) (o : Oracle F D) (w : World F) (name : Str) (ti : List Str)
    (docs : List (Option (Doc F))) : OnlyAt (ns ++ name) w (addDocuments E o w name ti docs).1 := by
  have := onlyAt_addBegin o w name
  unfold addDocuments
  split
  · rename_i w1 e h; rw [h] at this; exact this
  · rename_i w1 n h; rw [h] at this; exact this.trans (onlyAt_addFinish ..)

theorem onlyAt_nearWith [DecidableEq F] (E : Env F D) (o : Oracle F D) (w : World F) (c : Str) (q : List F) (max : D) (ef limit : Int) :
    OnlyAt c w (nearWith E o w c q max ef limit).1 := by
  unfold nearWith
  split
  · exact .refl _ _
  · exact onlyAt_setColl ..

theorem onlyAt_nearVector [DecidableEq F] (E : Env F D) (o : Oracle F D) (w : World F) (name : Str) (q : List F) (max : D) (limit : Int) :
    OnlyAt (ns ++ name) w (nearVector E o w name q max limit).1 := by
  have := onlyAt_ensureOpen o w (ns ++ name)
  unfold nearVector
  split
  · rename_i w1 e h; rw [h] at this; exact this
  · rename_i w1 h; rw [h] at this; exact this.trans (onlyAt_nearWith ..)

theorem onlyAt_nearText [DecidableEq F] (E : Env F D) (o : Oracle F D) (w : World F) (name text : Str) (max : D) (limit : Int) :
    OnlyAt (ns ++ name) w (nearText E o w name text max limit).1 := by
  have := onlyAt_ensureOpen o w (ns ++ name)
  unfold nearText
  split
  · rename_i w1 e h; rw [h] at this; exact this
  · rename_i w1 h
    rw [h] at this
    split
    · exact this
    · split
      · exact this
      · exact this
      · exact this.trans (onlyAt_nearWith ..)

theorem onlyAt_getDocument (o : Oracle F D) (sat : Str → Props F → Bool) (w : World F) (name property value : Str) :
    OnlyAt (ns ++ name) w (getDocument o sat w name property value).1 := by
  unfold getDocument
  simp only []
  split
  · exact .refl _ _
  · split
    · exact .refl _ _
    · exact onlyAt_setColl ..

/-- A request about a collection changes nothing that belongs to another name. -/
theorem onlyAt_serve [DecidableEq F] (E : Env F D) (w : World F) (r : Req F D) {n : Str} (h : r.about = some n) :
    OnlyAt (ns ++ n) w (serve E w r).1 := by
  cases r with
  | create o name ix => cases h; exact onlyAt_create ..
  | delete o name => cases h; exact onlyAt_delete ..
  | add o name ti docs => cases h; exact onlyAt_add ..
  | nearVector o name q max limit => cases h; exact onlyAt_nearVector ..
  | nearText o name text max limit => cases h; exact onlyAt_nearText ..
  | get o sat name p v => cases h; exact onlyAt_getDocument ..
  | login ok => cases h
  | openPod ok => cases h
  | list o => cases h
  | restart => cases h

/-! ## What a request about a name looks at -/

theorem SameFor.setColl {w w' : World F} {c : Str} (h : SameFor w w' c) (x y : Coll F) (hxy : x = y) : SameFor (w.setColl c x) (w'.setColl c y) c := by
  subst hxy
  exact ⟨h.session, h.pod, h.lookup, by simp, h.db⟩

theorem same_withDb {w w' : World F} {c : Str} (ix : Map IxType) (h : SameFor w w' c) : SameFor (w.withDb c ix) (w'.withDb c ix) c := by
  unfold World.withDb
  rw [h.db]
  split
  · exact h
  · refine ⟨h.session, h.pod, h.lookup, h.coll, ?_⟩
    show Map.get (w'.dbs ++ _) _ = Map.get (w.dbs ++ _) _
    rw [Map.get_append, Map.get_append, h.db]

theorem same_create (o : Oracle F D) {w w' : World F} {name : Str} (ix : Map IxType) (h : SameFor w w' (ns ++ name)) :
    SameFor (create o w name ix).1 (create o w' name ix).1 (ns ++ name) ∧ (create o w' name ix).2 = (create o w name ix).2 := by
  unfold create
  by_cases h1 : (!w.session) = true
  · rw [if_pos h1, if_pos (show (!w'.session) = true by rw [h.session]; exact h1)]; exact ⟨h, rfl⟩
  rw [if_neg h1, if_neg (show ¬ (!w'.session) = true by rw [h.session]; exact h1)]
  by_cases h2 : (!w.pod) = true
  · rw [if_pos h2, if_pos (show (!w'.pod) = true by rw [h.pod]; exact h2)]; exact ⟨h, rfl⟩
  rw [if_neg h2, if_neg (show ¬ (!w'.pod) = true by rw [h.pod]; exact h2)]
  by_cases h3 : o.docCreate = true
  · simp only [h3, if_true]; exact ⟨h, trivial⟩
  simp only [h3, if_false, Bool.false_eq_true]
  have hw := same_withDb (ix.set hnswName .number) h
  generalize w.withDb (ns ++ name) (ix.set hnswName .number) = w1 at hw
  generalize w'.withDb (ns ++ name) (ix.set hnswName .number) = w2 at hw
  by_cases h4 : o.createTable = true
  · simp only [h4, if_true]; exact ⟨hw, by first | rfl | simp⟩
  simp only [h4, if_false, Bool.false_eq_true, setColl_self, setColl_setColl, hw.coll]
  split
  · exact ⟨hw.setColl _ _ rfl, by first | rfl | simp⟩
  · split
    · exact ⟨hw.setColl _ _ rfl, by first | rfl | simp⟩
    · split
      · exact ⟨hw.setColl _ _ rfl, by first | rfl | simp⟩
      · exact ⟨hw.setColl _ _ rfl, by first | rfl | simp⟩

theorem same_delete (o : Oracle F D) {w w' : World F} {name : Str} (h : SameFor w w' (ns ++ name)) :
    SameFor (delete o w name).1 (delete o w' name).1 (ns ++ name) ∧ (delete o w' name).2 = (delete o w name).2 := by
  unfold delete
  rw [h.session, h.pod]
  by_cases h1 : (!w.session) = true
  · rw [if_pos h1, if_pos h1]; exact ⟨h, rfl⟩
  rw [if_neg h1, if_neg h1]
  by_cases h2 : (!w.pod) = true
  · rw [if_pos h2, if_pos h2]; exact ⟨h, rfl⟩
  rw [if_neg h2, if_neg h2]
  refine ⟨?_, rfl⟩
  by_cases h3 : o.docDelete = true <;> by_cases h4 : o.deleteTable = true
  all_goals simp only [h3, h4, if_true, if_false, Bool.false_eq_true]
  · exact h.setColl _ _ (by rw [h.coll])
  · simp only [setColl_self, setColl_setColl]; exact h.setColl _ _ (by rw [h.coll])
  · refine ⟨h.session, h.pod, h.lookup, by simp [World.setColl, h.coll], ?_⟩
    show Map.get (Map.del _ _) _ = Map.get (Map.del _ _) _
    rw [Map.get_del, Map.get_del]; simp
  · refine ⟨h.session, h.pod, h.lookup, by simp [World.setColl, h.coll], ?_⟩
    show Map.get (Map.del _ _) _ = Map.get (Map.del _ _) _
    rw [Map.get_del, Map.get_del]; simp

theorem same_ensureOpen (o : Oracle F D) {w w' : World F} {c : Str} (h : SameFor w w' c) :
    SameFor (ensureOpen o w c).1 (ensureOpen o w' c).1 c ∧ (ensureOpen o w' c).2 = (ensureOpen o w c).2 := by
  unfold ensureOpen
  simp only [h.pod, h.coll, setColl_self, setColl_setColl, setColl_session, setColl_dbs, h.session, h.db]
  split
  · exact ⟨h, rfl⟩
  split
  · exact ⟨h, rfl⟩
  split
  · exact ⟨h.setColl _ _ rfl, rfl⟩
  split
  · exact ⟨h.setColl _ _ rfl, rfl⟩
  split
  · exact ⟨h.setColl _ _ rfl, rfl⟩
  split
  · exact ⟨h.setColl _ _ rfl, rfl⟩
  · exact ⟨h.setColl _ _ rfl, rfl⟩

theorem same_addFinish [DecidableEq F] (E : Env F D) (o : Oracle F D) {w w' : World F} {name : Str} (ti : List Str)
    (docs : List (Option (Doc F))) (n : Nat) (h : SameFor w w' (ns ++ name)) :
    SameFor (addFinish E o w name ti docs n).1 (addFinish E o w' name ti docs n).1 (ns ++ name) ∧
    (addFinish E o w' name ti docs n).2 = (addFinish E o w name ti docs n).2 := by
  have key : ∀ (x : Coll F) (ds : List (Props F)), SameFor { (w.setColl (ns ++ name) x) with
      dbs := w.dbs.map (fun e => if e.1 = ns ++ name then (ns ++ name, { e.2 with docs := ds }) else e) }
      { (w'.setColl (ns ++ name) x) with
      dbs := w'.dbs.map (fun e => if e.1 = ns ++ name then (ns ++ name, { e.2 with docs := ds }) else e) } (ns ++ name) := by
    intro x ds
    refine ⟨h.session, h.pod, h.lookup, by simp [World.setColl], ?_⟩
    show Map.get (List.map _ _) _ = Map.get (List.map _ _) _
    rw [Map.get_mapAt w.dbs (ns ++ name) (fun d => { d with docs := ds }),
      Map.get_mapAt w'.dbs (ns ++ name) (fun d => { d with docs := ds }), h.db]
  unfold addFinish
  simp only [h.coll, h.db, h.lookup]
  split
  · exact ⟨key _ _, rfl⟩
  · split
    · exact ⟨(key _ _).setColl _ _ (by simp [World.setColl]), rfl⟩
    · exact ⟨(key _ _).setColl _ _ (by simp [World.setColl]), rfl⟩

theorem same_addBegin (o : Oracle F D) {w w' : World F} {name : Str} (h : SameFor w w' (ns ++ name)) :
    SameFor (addBegin o w name).1 (addBegin o w' name).1 (ns ++ name) ∧ (addBegin o w' name).2 = (addBegin o w name).2 := by
  have := same_ensureOpen o h
  unfold addBegin
  simp only []
  generalize ensureOpen o w (ns ++ name) = r at this
  generalize ensureOpen o w' (ns ++ name) = r' at this
  obtain ⟨w1, e⟩ := r
  obtain ⟨w2, e'⟩ := r'
  obtain ⟨h1, h2⟩ := this
  simp only at h1 h2
  subst h2
  cases e' with
  | some e => exact ⟨h1, rfl⟩
  | none =>
    simp only [h1.coll]
    split
    · exact ⟨h1, rfl⟩
    · exact ⟨h1, rfl⟩

theorem same_add [DecidableEq F] (E : Env F D) (o : Oracle F D) {w w' : World F} {name : Str} (ti : List Str)
    (docs : List (Option (Doc F))) (h : SameFor w w' (ns ++ name)) :
    SameFor (addDocuments E o w name ti docs).1 (addDocuments E o w' name ti docs).1 (ns ++ name) ∧
    (addDocuments E o w' name ti docs).2 = (addDocuments E o w name ti docs).2 := by
  have := same_addBegin o h
  unfold addDocuments
  generalize addBegin o w name = r at this
  generalize addBegin o w' name = r' at this
  obtain ⟨w1, e⟩ := r
  obtain ⟨w2, e'⟩ := r'
  obtain ⟨h1, h2⟩ := this
  simp only at h1 h2
  subst h2
  cases e' with
  | error e => exact ⟨h1, rfl⟩
  | ok n => exact same_addFinish E o ti docs n h1

theorem same_nearWith [DecidableEq F] (E : Env F D) (o : Oracle F D) {w w' : World F} {c : Str} (q : List F) (max : D) (ef limit : Int)
    (h : SameFor w w' c) :
    SameFor (nearWith E o w c q max ef limit).1 (nearWith E o w' c q max ef limit).1 c ∧
    (nearWith E o w' c q max ef limit).2 = (nearWith E o w c q max ef limit).2 := by
  unfold nearWith
  simp only [h.coll, setColl_dbs, h.db]
  split
  · exact ⟨h, rfl⟩
  · exact ⟨h.setColl _ _ rfl, rfl⟩

theorem same_nearVector [DecidableEq F] (E : Env F D) (o : Oracle F D) {w w' : World F} {name : Str} (q : List F) (max : D) (limit : Int)
    (h : SameFor w w' (ns ++ name)) :
    SameFor (nearVector E o w name q max limit).1 (nearVector E o w' name q max limit).1 (ns ++ name) ∧
    (nearVector E o w' name q max limit).2 = (nearVector E o w name q max limit).2 := by
  have := same_ensureOpen o h
  unfold nearVector
  generalize ensureOpen o w (ns ++ name) = r at this
  generalize ensureOpen o w' (ns ++ name) = r' at this
  obtain ⟨w1, e⟩ := r
  obtain ⟨w2, e'⟩ := r'
  obtain ⟨h1, h2⟩ := this
  simp only at h1 h2
  subst h2
  cases e' with
  | some e => exact ⟨h1, rfl⟩
  | none => exact same_nearWith E o q max 800 limit h1

theorem same_nearText [DecidableEq F] (E : Env F D) (o : Oracle F D) {w w' : World F} {name : Str} (text : Str) (max : D) (limit : Int)
    (h : SameFor w w' (ns ++ name)) :
    SameFor (nearText E o w name text max limit).1 (nearText E o w' name text max limit).1 (ns ++ name) ∧
    (nearText E o w' name text max limit).2 = (nearText E o w name text max limit).2 := by
  have := same_ensureOpen o h
  unfold nearText
  generalize ensureOpen o w (ns ++ name) = r at this
  generalize ensureOpen o w' (ns ++ name) = r' at this
  obtain ⟨w1, e⟩ := r
  obtain ⟨w2, e'⟩ := r'
  obtain ⟨h1, h2⟩ := this
  simp only at h1 h2
  subst h2
  cases e' with
  | some e => exact ⟨h1, rfl⟩
  | none =>
    simp only [h1.lookup]
    split
    · exact ⟨h1, rfl⟩
    · split
      · exact ⟨h1, rfl⟩
      · exact ⟨h1, rfl⟩
      · exact same_nearWith E o _ max limit limit h1

theorem same_getDocument (o : Oracle F D) (sat : Str → Props F → Bool) {w w' : World F} {name : Str} (property value : Str)
    (h : SameFor w w' (ns ++ name)) :
    SameFor (getDocument o sat w name property value).1 (getDocument o sat w' name property value).1 (ns ++ name) ∧
    (getDocument o sat w' name property value).2 = (getDocument o sat w name property value).2 := by
  unfold getDocument
  simp only [h.session, h.pod, h.coll, h.db, setColl_dbs]
  split
  · exact ⟨h, rfl⟩
  · split
    · exact ⟨h, rfl⟩
    · exact ⟨h.setColl _ _ rfl, rfl⟩

/-- A request about a collection is answered, and changes it, according to what belongs to its name only. -/
theorem same_serve [DecidableEq F] (E : Env F D) {w w' : World F} (r : Req F D) {n : Str} (hr : r.about = some n) (h : SameFor w w' (ns ++ n)) :
    SameFor (serve E w r).1 (serve E w' r).1 (ns ++ n) ∧ (serve E w' r).2 = (serve E w r).2 := by
  cases r with
  | create o name ix => cases hr; have := same_create o ix h; exact ⟨this.1, by simp [serve, this.2]⟩
  | delete o name => cases hr; have := same_delete o h; exact ⟨this.1, by simp [serve, this.2]⟩
  | add o name ti docs => cases hr; have := same_add E o ti docs h; exact ⟨this.1, by simp [serve, this.2]⟩
  | nearVector o name q max limit => cases hr; have := same_nearVector E o q max limit h; exact ⟨this.1, by simp [serve, this.2]⟩
  | nearText o name text max limit => cases hr; have := same_nearText E o text max limit h; exact ⟨this.1, by simp [serve, this.2]⟩
  | get o sat name p v => cases hr; have := same_getDocument o sat p v h; exact ⟨this.1, by simp [serve, this.2]⟩
  | login ok => cases hr
  | openPod ok => cases hr
  | list o => cases hr
  | restart => cases hr

end Fave.Client
