import Verif.Lemmas.Poison
import Verif.Lemmas.ClientWorld
import Verif.Lemmas.ClientRun
/-!
# Requests to a collection with a vertex that cannot be written
-/
namespace Fave.Client
variable {F D : Type} [Dist D] [DecidableEq F]
open Index (Fed Poisoned)

theorem Move.fed {P : Params (List F) D} {good : List F → Prop} {s t : Index (List F)} (h : Move s t) (ha : Fed P good s) : Fed P good t := by
  induction h with
  | refl => exact ha
  | reopen _ ih => exact .restart ih
  | load _ ih => exact .load ih
  | unread _ ih => exact .unread ih

theorem flushCut_fed {P : Params (List F) D} {good : List F → Prop} {cut : Option Nat} {s : Index (List F)} {order : List Nat} {n : Nat}
    (h : Fed P good s) : Fed P good (flushCut P cut s order n).1 := by
  unfold flushCut
  simp only
  split
  · exact .flush _ _ h
  · split
    · exact .cut order n _ h (List.take_prefix ..)
    · exact .flush _ _ h

theorem storeDoc_idx (E : Env F D) (o : Oracle F D) (i : Nat) (b : Batch F) (p : Props F) (n : Option Nat) :
    (storeDoc E o i b p n).1.idx = b.idx ∧ (storeDoc E o i b p n).1.next = b.next := by
  unfold storeDoc
  split
  · exact ⟨rfl, rfl⟩
  · split <;> exact ⟨rfl, rfl⟩

/-- what one document does to the index -/
def OneAdd (E : Env F D) (b b' : Batch F) : Prop :=
  (b'.idx = b.idx ∧ b'.next = b.next) ∨
  ∃ vo sched vec level, b'.idx = (Index.add E.P vo sched b.idx b.next vec level).1 ∧ (b'.next = b.next ∨ b'.next = b.next + 1)

theorem indexDoc_idx (E : Env F D) (o : Oracle F D) (i : Nat) (b : Batch F) (p : Props F) (vec : List F) :
    OneAdd E b (indexDoc E o i b p vec).1 := by
  right
  refine ⟨o.vo i, o.sched i, vec, o.level i, ?_⟩
  unfold indexDoc
  split
  · rename_i h; rw [h]; exact ⟨rfl, .inl rfl⟩
  · rename_i h; rw [h]; exact ⟨rfl, .inl rfl⟩
  · rename_i idx h
    rw [h]
    have := storeDoc_idx E o i { b with idx := idx, next := b.next + 1 } p (some b.next)
    exact ⟨this.1, .inr this.2⟩

theorem addOne_idx (E : Env F D) (o : Oracle F D) (lk : Bool) (ti : List Str) (i : Nat) (b : Batch F) (d : Option (Doc F)) :
    OneAdd E b (addOne E o lk ti i b d).1 := by
  have hr : OneAdd E b b := .inl ⟨rfl, rfl⟩
  cases d with
  | none => exact hr
  | some d =>
    unfold addOne
    simp only
    split
    · split
      · exact hr
      · exact indexDoc_idx ..
    · exact indexDoc_idx ..
    · exact hr
    · exact hr
    · exact hr
    all_goals
      split
      · exact hr
      · split
        · exact .inl (storeDoc_idx ..)
        · split
          · exact hr
          · split
            · exact hr
            · exact hr
            · exact indexDoc_idx ..

theorem OneAdd.fed {E : Env F D} {b b' : Batch F} (h : OneAdd E b b') (hf : Fed E.P (fun _ => True) b.idx) : Fed E.P (fun _ => True) b'.idx := by
  rcases h with ⟨h, _⟩ | ⟨vo, sched, vec, level, h, _⟩
  · rw [h]; exact hf
  · rw [h]; exact hf.add _ _ _ _ _ trivial

theorem addLoop_fed (E : Env F D) (o : Oracle F D) (lk : Bool) (ti : List Str) (docs : List (Option (Doc F))) (i : Nat) (b : Batch F)
    (hf : Fed E.P (fun _ => True) b.idx) : Fed E.P (fun _ => True) (addLoop E o lk ti i docs b).1.idx := by
  induction docs generalizing i b with
  | nil => exact hf
  | cons d docs ih =>
    have h1 := (addOne_idx E o lk ti i b d).fed hf
    unfold addLoop
    split
    · rename_i h; rw [h] at h1; exact h1
    · rename_i h; rw [h] at h1; exact ih _ _ h1

theorem addLoop_poison (E : Env F D) (o : Oracle F D) (lk : Bool) (ti : List Str) (x : Nat) (docs : List (Option (Doc F))) (i : Nat) (b : Batch F)
    (hf : Fed E.P (fun _ => True) b.idx) (hp : Poisoned E.P x b.idx) (hx : b.next + docs.length ≤ x ∨ x < b.next) :
    Poisoned E.P x (addLoop E o lk ti i docs b).1.idx ∧ (addLoop E o lk ti i docs b).1.idx.kvCount = b.idx.kvCount := by
  induction docs generalizing i b with
  | nil => exact ⟨hp, rfl⟩
  | cons d docs ih =>
    have h1 := addOne_idx E o lk ti i b d
    have hf1 := h1.fed hf
    have hp1 : Poisoned E.P x (addOne E o lk ti i b d).1.idx ∧ (addOne E o lk ti i b d).1.idx.kvCount = b.idx.kvCount ∧
        ((addOne E o lk ti i b d).1.next + docs.length ≤ x ∨ x < (addOne E o lk ti i b d).1.next) := by
      simp only [List.length_cons] at hx
      rcases h1 with ⟨h, hn⟩ | ⟨vo, sched, vec, level, h, hn⟩
      · rw [h, hn]; exact ⟨hp, rfl, by omega⟩
      · rw [h]
        exact ⟨Index.poison_add hf hp (by omega), (Index.add_keeps (Index.any_inv hf.any).1).kvCount, by omega⟩
    unfold addLoop
    split
    · rename_i h; rw [h] at hp1; exact ⟨hp1.1, hp1.2.1⟩
    · rename_i h
      rw [h] at hf1 hp1
      have := ih (i + 1) _ hf1 hp1.1 hp1.2.2
      exact ⟨this.1, this.2.trans hp1.2.1⟩

theorem flushCut_poison {P : Params (List F) D} {cut : Option Nat} {s : Index (List F)} {order : List Nat} {n x : Nat} (hf : Fed P (fun _ => True) s)
    (hp : Poisoned P x s) (hx : x ∈ order) :
    (flushCut P cut s order n).2 = some .error ∧ Poisoned P x (flushCut P cut s order n).1 ∧ (flushCut P cut s order n).1.kvCount = s.kvCount := by
  have hi := (Index.any_inv hf.any).1
  have h1 := Index.poison_writes hi hp hx (n := n) (List.prefix_refl _)
  have h2 := Index.poison_flush hp hx (n := n)
  unfold flushCut
  simp only
  split
  · exact ⟨h2, h1.1, h1.2.2⟩
  · split
    · rename_i k _
      have h3 := Index.poison_writes hi hp hx (n := n) (List.take_prefix k _)
      exact ⟨rfl, h3.1, h3.2.2⟩
    · exact ⟨h2, h1.1, h1.2.2⟩

theorem addFinish_fed (E : Env F D) (o : Oracle F D) (w : World F) (name : Str) (ti : List Str) (docs : List (Option (Doc F))) (n : Nat)
    (hf : Fed E.P (fun _ => True) (w.coll (ns ++ name)).idx) :
    Fed E.P (fun _ => True) ((addFinish E o w name ti docs n).1.coll (ns ++ name)).idx := by
  have hl := addLoop_fed E o w.lookup ti docs 0 ⟨(w.coll (ns ++ name)).idx, ((w.dbs.get (ns ++ name)).getD ⟨[], []⟩).docs, n, []⟩ hf
  unfold addFinish
  simp only
  split
  · show Fed _ _ ((World.setColl _ _ _).coll _).idx
    rw [setColl_self]; exact hl
  · split <;>
    · show Fed _ _ ((World.setColl _ _ _).coll _).idx
      rw [setColl_self]; exact flushCut_fed hl

theorem addFinish_poison (E : Env F D) (o : Oracle F D) (w : World F) (name : Str) (ti : List Str) (docs : List (Option (Doc F))) (n x : Nat)
    (hf : Fed E.P (fun _ => True) (w.coll (ns ++ name)).idx) (hp : Poisoned E.P x (w.coll (ns ++ name)).idx) (hx : n + docs.length ≤ x ∨ x < n) :
    (addFinish E o w name ti docs n).2.2 ≠ none ∧ Poisoned E.P x ((addFinish E o w name ti docs n).1.coll (ns ++ name)).idx ∧
    (addFinish E o w name ti docs n).1.count (ns ++ name) = w.count (ns ++ name) ∧
    ((addFinish E o w name ti docs n).1.coll (ns ++ name)).dbOpen = (w.coll (ns ++ name)).dbOpen := by
  have hl := addLoop_fed E o w.lookup ti docs 0 ⟨(w.coll (ns ++ name)).idx, ((w.dbs.get (ns ++ name)).getD ⟨[], []⟩).docs, n, []⟩ hf
  have hq := addLoop_poison E o w.lookup ti x docs 0 ⟨(w.coll (ns ++ name)).idx, ((w.dbs.get (ns ++ name)).getD ⟨[], []⟩).docs, n, []⟩ hf hp hx
  unfold World.count
  unfold addFinish
  simp only
  generalize addLoop E o w.lookup ti 0 docs ⟨(w.coll (ns ++ name)).idx, ((w.dbs.get (ns ++ name)).getD ⟨[], []⟩).docs, n, []⟩ = r at *
  have hd : ∀ (u : World F) (dbs : Map (Db F)) (y : Coll F), (World.coll { (u.setColl (ns ++ name) y) with dbs := dbs } (ns ++ name)) = y := by
    intro u dbs y; exact setColl_self u _ y
  have hc := hq.2
  have hcc : r.1.idx.kvCount = (w.coll (ns ++ name)).idx.kvCount := hc
  cases hr : r.2 with
  | some e =>
    simp only
    rw [hd]
    exact ⟨by simp, hq.1, congrArg (·.getD 0) hcc, rfl⟩
  | none =>
    obtain ⟨v, hv, _⟩ := hq.1
    have hm : x ∈ o.order r.1.idx.cache.keys := o.order_mem _ _ (Tab.mem_keys_of_get hv)
    obtain ⟨k1, k2, k3⟩ := flushCut_poison (cut := o.cut) (n := r.1.next) hl hq.1 hm
    simp only [k1]
    rw [setColl_self, hd]
    exact ⟨by simp, k2, congrArg (·.getD 0) (k3.trans hcc), rfl⟩

theorem ensureOpen_kept (o : Oracle F D) (w : World F) (c : Str) (ho : (w.coll c).dbOpen = true) :
    ((ensureOpen o w c).1.coll c).idx = (w.coll c).idx ∧ ((ensureOpen o w c).1.coll c).dbOpen = true := by
  unfold ensureOpen
  split
  · exact ⟨rfl, ho⟩
  split
  · exact ⟨rfl, ho⟩
  simp only [setColl_self]
  split
  · rw [setColl_self]; exact ⟨rfl, ho⟩
  · simp only [ho, if_true, setColl_self]; exact ⟨trivial, trivial⟩

theorem addDocuments_fed (E : Env F D) (o : Oracle F D) (w : World F) (name : Str) (ti : List Str) (docs : List (Option (Doc F)))
    (hf : Fed E.P (fun _ => True) (w.coll (ns ++ name)).idx) : Fed E.P (fun _ => True) ((addDocuments E o w name ti docs).1.coll (ns ++ name)).idx := by
  have h1 := (calm_ensureOpen o w (ns ++ name)).move.fed hf
  unfold addDocuments addBegin
  simp only
  cases hop : ensureOpen o w (ns ++ name) with
  | mk w1 oe =>
    rw [hop] at h1
    cases oe with
    | some e => exact h1
    | none =>
      simp only
      cases hh : (w1.coll (ns ++ name)).hasIdx with
      | false => exact h1
      | true => exact addFinish_fed E o w1 name ti docs _ h1

/-- the collection of a run -/
theorem fed_run (E : Env F D) (lookup : Bool) (dbs : Map (Db F)) (name : Str) (rs : List (Req F D)) :
    Fed E.P (fun _ => True) ((run E (World.fresh lookup dbs) rs).coll (ns ++ name)).idx := by
  have key : ∀ (rs : List (Req F D)) (w : World F), Fed E.P (fun _ => True) (w.coll (ns ++ name)).idx →
      Fed E.P (fun _ => True) ((run E w rs).coll (ns ++ name)).idx := by
    intro rs
    induction rs with
    | nil => exact fun _ h => h
    | cons r rs ih =>
      intro w hw
      rw [run_cons]
      apply ih
      by_cases ha : ∃ o ti docs, r = .add o name ti docs
      · obtain ⟨o, ti, docs, rfl⟩ := ha
        exact addDocuments_fed E o w name ti docs hw
      by_cases hd : ∃ o, r = .delete o name
      · obtain ⟨o, rfl⟩ := hd
        show Fed _ _ ((delete o w name).1.coll (ns ++ name)).idx
        rcases delete_cases o w name with ⟨h, _⟩ | ⟨_, _, h⟩
        · rw [h]; exact hw
        · rw [h]
          split
          · exact hw.restart
          · exact .init
      exact (calm_serve E w r name (fun o ti docs h => ha ⟨o, ti, docs, h⟩) (fun o h => hd ⟨o, h⟩)).move.fed hw
  exact key rs _ .init

theorem poisoned_load {P : Params (List F) D} {x : Nat} {s : Index (List F)} (o : Oracle F D) (h : Poisoned P x s) : Poisoned P x (loaded o s) := by
  unfold loaded
  split <;> exact h

theorem loaded_kvCount (o : Oracle F D) (s : Index (List F)) : (loaded o s).kvCount = s.kvCount := by
  unfold loaded
  split <;> rfl

theorem nearWith_poison (E : Env F D) (o : Oracle F D) (w : World F) (c : Str) (q : List F) (max : D) (ef limit : Int) (x : Nat)
    (hp : Poisoned E.P x (w.coll c).idx) :
    Poisoned E.P x ((nearWith E o w c q max ef limit).1.coll c).idx ∧ (nearWith E o w c q max ef limit).1.count c = w.count c ∧
    ((nearWith E o w c q max ef limit).1.coll c).dbOpen = (w.coll c).dbOpen := by
  unfold World.count nearWith
  split
  · exact ⟨hp, rfl, rfl⟩
  · simp only [setColl_self]
    exact ⟨poisoned_load o hp, congrArg (·.getD 0) (loaded_kvCount o _), trivial⟩

/-- the collection has a vertex `x` that cannot be written, the stored count `n`, and an open document database -/
structure Stuck (P : Params (List F) D) (c : Str) (x n : Nat) (w : World F) : Prop where
  fed : Fed P (fun _ => True) (w.coll c).idx
  bad : Poisoned P x (w.coll c).idx
  count : w.count c = n
  opened : (w.coll c).dbOpen = true

theorem stuck_open {P : Params (List F) D} {c : Str} {x n : Nat} {w : World F} (h : Stuck P c x n w) (o : Oracle F D) :
    Stuck P c x n (ensureOpen o w c).1 := by
  obtain ⟨h1, h2⟩ := ensureOpen_kept o w c h.opened
  refine ⟨by rw [h1]; exact h.fed, by rw [h1]; exact h.bad, ?_, h2⟩
  unfold World.count; rw [h1]; exact h.count

theorem stuck_nearWith {E : Env F D} {c : Str} {x n : Nat} {w : World F} (h : Stuck E.P c x n w) (o : Oracle F D) (q : List F) (max : D)
    (ef limit : Int) : Stuck E.P c x n (nearWith E o w c q max ef limit).1 := by
  obtain ⟨h1, h2, h3⟩ := nearWith_poison E o w c q max ef limit x h.bad
  exact ⟨(calm_nearWith E o w c q max ef limit).move.fed h.fed, h1, h2.trans h.count, h3.trans h.opened⟩

theorem stuck_coll {P : Params (List F) D} {c : Str} {x n : Nat} {w w' : World F} (h : Stuck P c x n w) (hc : w'.coll c = w.coll c) : Stuck P c x n w' :=
  ⟨by rw [hc]; exact h.fed, by rw [hc]; exact h.bad, by unfold World.count; rw [hc]; exact h.count, by rw [hc]; exact h.opened⟩

theorem stuck_add {E : Env F D} {name : Str} {x n : Nat} {w : World F} (h : Stuck E.P (ns ++ name) x n w) (o : Oracle F D) (hc : o.count = false)
    (ti : List Str) (docs : List (Option (Doc F))) (hx : n + docs.length ≤ x ∨ x < n) :
    (addDocuments E o w name ti docs).2.2 ≠ none ∧ Stuck E.P (ns ++ name) x n (addDocuments E o w name ti docs).1 := by
  have h1 := stuck_open h o
  have hfed := addDocuments_fed E o w name ti docs h.fed
  unfold addDocuments addBegin at hfed ⊢
  simp only at hfed ⊢
  cases hop : ensureOpen o w (ns ++ name) with
  | mk w1 oe =>
    rw [hop] at h1 hfed
    cases oe with
    | some e => exact ⟨by simp, h1⟩
    | none =>
      simp only at hfed ⊢
      cases hh : (w1.coll (ns ++ name)).hasIdx with
      | false => exact ⟨by simp, h1⟩
      | true =>
        rw [hh] at hfed
        simp only [Bool.not_true, Bool.false_eq_true, if_false, hc] at hfed ⊢
        have hn : (w1.coll (ns ++ name)).idx.docCount.getD 0 = n := h1.count
        rw [hn] at hfed ⊢
        obtain ⟨k1, k2, k3, k4⟩ := addFinish_poison E o w1 name ti docs n x h1.fed h1.bad hx
        exact ⟨k1, hfed, k2, k3.trans h1.count, k4.trans h1.opened⟩

theorem stuck_near {E : Env F D} {name : Str} {x n : Nat} {w : World F} (h : Stuck E.P (ns ++ name) x n w) (o : Oracle F D) :
    (∀ q max limit, Stuck E.P (ns ++ name) x n (nearVector E o w name q max limit).1) ∧
    (∀ text max limit, Stuck E.P (ns ++ name) x n (nearText E o w name text max limit).1) := by
  have h1 := stuck_open h o
  constructor
  · intro q max limit
    unfold nearVector
    split
    · rename_i he; rw [he] at h1; exact h1
    · rename_i he; rw [he] at h1; exact stuck_nearWith h1 ..
  · intro text max limit
    unfold nearText
    split
    · rename_i he; rw [he] at h1; exact h1
    · rename_i he
      rw [he] at h1
      split
      · exact h1
      · split
        · exact h1
        · exact h1
        · exact stuck_nearWith h1 ..

theorem stuck_get {P : Params (List F) D} {name : Str} {x n : Nat} {w : World F} (h : Stuck P (ns ++ name) x n w) (o : Oracle F D)
    (sat : Str → Props F → Bool) (property value : Str) : Stuck P (ns ++ name) x n (getDocument o sat w name property value).1 := by
  unfold getDocument
  simp only []
  split
  · exact h
  · split
    · exact h
    · refine ⟨?_, ?_, ?_, ?_⟩
      · rw [setColl_self]; exact h.fed
      · rw [setColl_self]; exact h.bad
      · unfold World.count; rw [setColl_self]; exact h.count
      · rw [setColl_self]

end Fave.Client
