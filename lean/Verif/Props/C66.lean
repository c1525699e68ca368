import Verif.Lemmas.PoisonClient
import Verif.Lemmas.Nan
import Verif.Props.C36
import Verif.Props.C17
import Verif.Props.C63
import Verif.Props.C64
/-!
# C66: a vector that cannot be written

Full claim: *what the index accepts it can write: after a successful addition, `Flush` succeeds if the storage does, so that one bad document
cannot keep others from being stored.*

False: a document with a number beyond the range of `float32` is accepted, but its normalised vector has entries that are not numbers
(`accepted_anyway`), `json.Marshal` fails on them, and until the process is restarted or the same number is given again every `Flush` and
every request that adds documents fails (`poison_stays`, `requests_fail`).  In the meantime the document is found by every search
(`returned_whatever_asked`) and others are not found (`hides_others`); after the restart its number is given again
(`wrong_document_returned`).  True for vectors of numbers (`numbers_are_stored_partial`).
-/
namespace Fave
namespace C66
open Index Distance F32 Client

/-! ## when everything can be written -/

/-- Whatever sequence of additions, flushes, failures and restarts: if each vector added can be marshalled once it is normalised, a flush
runs to its end and writes the count and the entry point. -/
theorem flush_succeeds_partial {V D : Type} [Dist D] (P : Params V D) (s : Index V) (h : Fed P (fun v => P.jsonOk (P.norm v) = true) s)
    (order : List ℕ) (n : ℕ) : (flush P s order n).2 = none ∧ (flush P s order n).1.kvCount = some n ∧ (flush P s order n).1.kvEntry = some s.entry := by
  have hall : flushUpToBad P (s.flushWrites order n) = (s.flushWrites order n, none) := by
    apply attempted_all
    intro v hv
    unfold flushWrites at hv
    rcases List.mem_append.1 hv with hv | hv
    · obtain ⟨u, hu, he⟩ := List.mem_map.1 hv
      cases he
      unfold dirty at hu
      obtain ⟨id, _, hb⟩ := List.mem_filterMap.1 hu
      cases hc : s.cache.get id with
      | none => rw [hc] at hb; cases hb
      | some w =>
        rw [hc] at hb
        simp only [Option.bind_some] at hb
        split at hb
        · cases hb
        · cases hb; exact fed_get h id _ (get_of_cache hc)
    · simp at hv
  unfold flush
  rw [hall]
  unfold flushWrites
  refine ⟨rfl, ?_, ?_⟩ <;>
  · simp only [List.foldl_append]
    rfl

/-- a vector can be marshalled once it is normalised exactly if all its entries are numbers -/
theorem marshals_normalized (v : List Num) : marshals (normalize ops v) = marshals v := by
  have hfalse : ∀ u : List Num, (∃ x ∈ u, x = .nan ∨ ∃ s, x = .inf s) → marshals u = false := by
    rintro u ⟨x, hx, h⟩
    cases hm : marshals u with
    | false => rfl
    | true =>
      have := List.all_eq_true.1 hm x hx
      rcases h with rfl | ⟨s, rfl⟩ <;> cases this
  by_cases h1 : .nan ∈ v
  · rw [normalize_nan v h1, hfalse v ⟨_, h1, .inl rfl⟩]
    exact hfalse _ ⟨.nan, List.mem_map.2 ⟨_, h1, rfl⟩, .inl rfl⟩
  by_cases h2 : ∃ s, .inf s ∈ v
  · obtain ⟨s, h2⟩ := h2
    rw [C64.infinite_entry_not_a_number v (fun x hx hn => h1 (hn ▸ hx)) s h2, hfalse v ⟨_, h2, .inr ⟨s, rfl⟩⟩]
    exact hfalse _ ⟨.nan, List.mem_map.2 ⟨_, h2, rfl⟩, .inl rfl⟩
  · have hv : ∃ w : List ℚ, v = vec w := by
      refine ⟨v.map Num.val, ?_⟩
      unfold vec
      rw [List.map_map]
      conv_lhs => rw [← List.map_id v]
      apply List.map_congr_left
      intro x hx
      cases x with
      | fin a => rfl
      | inf s => exact absurd ⟨s, hx⟩ h2
      | nan => exact absurd hx h1
    have htrue : ∀ w : List ℚ, marshals (vec w) = true := by
      intro w
      unfold marshals vec
      rw [List.all_eq_true]
      intro x hx
      obtain ⟨y, _, rfl⟩ := List.mem_map.1 hx
      rfl
    obtain ⟨w, rfl⟩ := hv
    obtain ⟨u, hu, _⟩ := C64.always_finite w
    rw [hu, htrue, htrue]

local instance : Dist Num := numDist

/-- With all the values of `float32`: as long as only vectors of numbers are added, however large or small, flushes run to their end.
Missing from the full statement: vectors with infinite entries and entries that are not numbers (see `accepted_anyway`). -/
theorem numbers_are_stored_partial (avx : Bool) (junk : ℕ → ℕ → Num) (s : Index (List Num))
    (h : Fed (paramsNum avx junk) (fun v => ∀ x ∈ v, ∃ a, x = .fin a) s) (order : List ℕ) (n : ℕ) :
    (flush (paramsNum avx junk) s order n).2 = none ∧ (flush (paramsNum avx junk) s order n).1.kvCount = some n := by
  have h' : Fed (paramsNum avx junk) (fun v => (paramsNum avx junk).jsonOk ((paramsNum avx junk).norm v) = true) s := by
    refine h.mono ?_
    intro v hv
    show marshals (normalize ops v) = true
    rw [marshals_normalized]
    unfold marshals
    rw [List.all_eq_true]
    intro x hx
    obtain ⟨a, rfl⟩ := hv x hx
    rfl
  have := flush_succeeds_partial _ s h' order n
  exact ⟨this.1, this.2.1⟩

/-! ## a vector that is accepted and cannot be written -/

theorem paramsNum_ok (avx : Bool) (junk : ℕ → ℕ → Num) : (paramsNum avx junk).Ok := by
  refine ⟨by show (30 : ℕ) ≤ 60; decide, by show (25000 : ℕ) ≤ 25500; decide, ?_, ?_⟩
  · intro a b h
    show (distance ops avx junk .cosine a b).toOption = none
    rw [(C36.error_iff_lengths ops avx junk .cosine a b).1 h]
    rfl
  · intro v
    show (normalize ops v).length = v.length
    unfold Distance.normalize
    simp only
    split <;> simp

theorem hist_fed {V D : Type} [Dist D] {P : Params V D} {s : Index V} {vs : List V} (h : Hist P s vs) : Fed P (fun _ => True) s := by
  induction h with
  | init => exact .init
  | @add s s' vs vo sched vec level _ ha ih => have := Fed.add vo sched vs.length vec level ih trivial; rw [ha] at this; exact this
  | @refused s s' vs e vo sched vec level _ _ _ ha ih => have := Fed.add vo sched vs.length vec level ih trivial; rw [ha] at this; exact this
  | @flush s s' vs order _ _ _ hf ih => have := Fed.flush order vs.length ih; rw [hf] at this; exact this
  | load _ ih => exact ih.load
  | unread _ ih => exact ih.unread
  | restart _ ih => exact ih.restart

/-- A vector with an entry that is infinite or not a number is added with success to any collection with room whose vectors have its
length, and cannot be written. -/
theorem accepted_anyway (avx : Bool) (junk : ℕ → ℕ → Num) (s : Index (List Num)) (vs : List (List Num)) (h : Hist (paramsNum avx junk) s vs)
    (hroom : vs.length < 25000) (v : List Num) (hv : ∃ x ∈ v, ∀ a, x ≠ .fin a) (hlen : ∀ u ∈ vs, u.length = v.length)
    (vo : VecOracle (List Num)) (hvo : ∀ l o k id, id ≤ vs.length → ∃ w, vo l o k id = some w ∧ w.length = v.length)
    (sched : Graph.Scheds Num) (level : ℕ) :
    ∃ s', add (paramsNum avx junk) vo sched s vs.length v level = (s', none) ∧ Hist (paramsNum avx junk) s' (vs ++ [v]) ∧
      Poisoned (paramsNum avx junk) vs.length s' := by
  have hm : marshals v = false := by
    obtain ⟨x, hx, hn⟩ := hv
    cases hm : marshals v with
    | false => rfl
    | true =>
      have := List.all_eq_true.1 hm x hx
      cases x with
      | fin a => exact absurd rfl (hn a)
      | inf s => cases this
      | nan => cases this
  have hL : v.length ≠ 0 := by
    intro h0
    rw [List.length_eq_zero_iff.1 h0] at hm
    cases hm
  obtain ⟨s', h1, h2⟩ := C17.additions_succeed_partial (paramsNum avx junk) (paramsNum_ok avx junk)
    (by
      intro a b hab
      obtain ⟨d, hd⟩ := (C36.error_iff_lengths ops avx junk .cosine a b).2 hab
      exact ⟨d, by show (distance ops avx junk .cosine a b).toOption = _; rw [hd]; rfl⟩)
    s vs h hroom v hL hlen vo hvo sched level
  refine ⟨s', h1, h2, ?_⟩
  have hinv := hist_inv (paramsNum_ok avx junk) h2
  have hfed := hist_fed h2
  obtain ⟨w, hw, _⟩ := hinv.wf vs.length (by simp)
  have hwv := hinv.holds vs.length v w (by simp) hw
  have hbad : (paramsNum avx junk).jsonOk w.vec = false := by
    rw [hwv]
    show marshals (normalize ops v) = false
    rw [marshals_normalized]; exact hm
  unfold Index.get at hw
  cases hc : s'.cache.get vs.length with
  | none =>
    rw [hc] at hw
    simp only at hw
    cases h0 : s'.kv.get vs.length with
    | none => rw [h0] at hw; cases hw
    | some u =>
      rw [h0] at hw
      cases hw
      have := fed_kv hfed _ u h0
      rw [show (paramsNum avx junk).jsonOk u.vec = false from hbad] at this; cases this
  | some u =>
    rw [hc] at hw
    cases hw
    refine ⟨w, hc, ?_, hbad⟩
    cases hcm : w.committed with
    | false => rfl
    | true =>
      have := fed_kv hfed _ _ (hinv.synced _ w hc hcm)
      rw [show (paramsNum avx junk).jsonOk (Search.core w).vec = false from hbad] at this; cases this

/-- Once a vertex cannot be written, every flush fails, whatever is added under other numbers; the count and the entry point in the
storage stay what they were, so that after a restart all numbers given since are given again. -/
theorem poison_stays {V D : Type} [Dist D] (P : Params V D) (s : Index V) (h : Fed P (fun _ => True) s) (x : ℕ) (hp : Poisoned P x s)
    (t : Index V) (ht : Without P x s t) :
    (∀ order n, x ∈ order → (flush P t order n).2 = some .error) ∧ t.kvCount = s.kvCount ∧ t.kvEntry = s.kvEntry ∧
    t.reopen.docCount = s.docCount := by
  obtain ⟨_, h2, h3, h4⟩ := ht.keeps h hp
  exact ⟨fun order n hx => poison_flush h2 hx, h4, h3, h4⟩

/-- requests that leave the vertex `x` of the collection alone: the process lives on, the collection is not created anew or deleted, and
additions (which can read the stored count `n`) give numbers other than `x` -/
def Spares {F D : Type} [Dist D] (name : Str) (x n : ℕ) : Req F D → Prop
  | .add o m _ docs => m ≠ name ∨ o.count = false ∧ (n + docs.length ≤ x ∨ x < n)
  | .create _ m _ => m ≠ name
  | .delete _ m => m ≠ name
  | .restart => False
  | _ => True

/-- After any requests: if the collection has a vertex that cannot be written, every request to add documents to it fails, whatever
requests come in between, as long as they leave that vertex alone; and the stored count stays. -/
theorem requests_fail {F D : Type} [Dist D] [DecidableEq F] (E : Env F D) (lookup : Bool) (dbs : Map (Db F)) (name : Str) (rs : List (Req F D))
    (w : World F) (hw : w = run E (World.fresh lookup dbs) rs) (x n : ℕ) (hp : Poisoned E.P x (w.coll (ns ++ name)).idx)
    (hn : w.count (ns ++ name) = n) (ho : (w.coll (ns ++ name)).dbOpen = true) (later : List (Req F D)) (hl : ∀ r ∈ later, Spares name x n r)
    (o : Oracle F D) (ti : List Str) (docs : List (Option (Doc F))) (hd : Spares name x n (.add o name ti docs)) :
    (∃ e, (serve E (run E w later) (.add o name ti docs)).2 = .failed e) ∧ (run E w later).count (ns ++ name) = n := by
  have hs : Stuck E.P (ns ++ name) x n w := ⟨by rw [hw]; exact fed_run E lookup dbs name rs, hp, hn, ho⟩
  have hd' : o.count = false ∧ (n + docs.length ≤ x ∨ x < n) := by
    rcases hd with hd | hd
    · exact absurd rfl hd
    · exact hd
  clear hw hp hn ho hd
  have key : Stuck E.P (ns ++ name) x n (run E w later) := by
    induction later generalizing w with
    | nil => exact hs
    | cons r later ih =>
      rw [run_cons]
      apply ih _ (fun r hr => hl r (List.mem_cons_of_mem _ hr))
      have hr := hl r (by simp)
      have other : ∀ m, r.about = some m → m ≠ name → Stuck E.P (ns ++ name) x n (serve E w r).1 := by
        intro m hm hne
        exact stuck_coll hs ((onlyAt_serve E w r hm).coll _ (ns_ne (Ne.symm hne)))
      cases r with
      | login ok =>
        unfold serve login
        simp only
        split <;> exact stuck_coll hs rfl
      | openPod ok =>
        unfold serve openPod
        simp only
        split
        · exact hs
        · split <;> exact stuck_coll hs rfl
      | create o m ix => exact other m rfl hr
      | delete o m => exact other m rfl hr
      | list o => exact hs
      | add o m ti docs =>
        rcases hr with hr | hr
        · exact other m rfl hr
        · by_cases hm : m = name
          · subst hm; exact (stuck_add hs o hr.1 ti docs hr.2).2
          · exact other m rfl hm
      | nearVector o m q max limit =>
        by_cases hm : m = name
        · subst hm; exact (stuck_near hs o).1 q max limit
        · exact other m rfl hm
      | nearText o m text max limit =>
        by_cases hm : m = name
        · subst hm; exact (stuck_near hs o).2 text max limit
        · exact other m rfl hm
      | get o sat m p v =>
        by_cases hm : m = name
        · subst hm; exact stuck_get hs o sat p v
        · exact other m rfl hm
      | restart => exact hr.elim
  refine ⟨?_, key.count⟩
  have := (stuck_add key o hd'.1 ti docs hd'.2).1
  obtain ⟨e, he⟩ := Option.ne_none_iff_exists'.1 this
  exact ⟨e, by show Ans.ofErr (addDocuments E o (run E w later) name ti docs).2.2 = _; rw [he]; rfl⟩

/-- The vector of such a document has distance not-a-number to every vector of its length, also computed with vector instructions. -/
theorem distance_not_a_number (avx : Bool) (junk : ℕ → ℕ → Num) (v q : List Num) (hl : v.length = q.length) (hv : ∃ x ∈ v, ∀ a, x ≠ .fin a) :
    distance ops avx junk .cosine (normalize ops v) q = .ok .nan := by
  have hnan : .nan ∈ normalize ops v := by
    obtain ⟨x, hx, hn⟩ := hv
    by_cases h1 : .nan ∈ v
    · rw [normalize_nan v h1]; exact List.mem_map.2 ⟨_, h1, rfl⟩
    · cases x with
      | fin a => exact absurd rfl (hn a)
      | nan => exact absurd hx h1
      | inf s =>
        rw [C64.infinite_entry_not_a_number v (fun x hx hn => h1 (hn ▸ hx)) s hx]
        exact List.mem_map.2 ⟨_, hx, rfl⟩
  have hl' : (normalize ops v).length = q.length := by
    rw [← hl]; exact (paramsNum_ok avx junk).norm v
  exact distance_nan avx junk hl' hnan

/-- where a distance lies on the line of numbers with an infinity at either end; not-a-number is nowhere -/
def onLine : Num → Option (WithBot (WithTop ℚ))
  | .fin x => some ((x : WithTop ℚ) : WithBot (WithTop ℚ))
  | .inf false => some ((⊤ : WithTop ℚ) : WithBot (WithTop ℚ))
  | .inf true => some ⊥
  | .nan => none

/-- The comparison of distances is the order of the line; with not-a-number nothing is less and nothing greater. -/
theorem compared (a b : Num) : Num.lt a b = true ↔ ∃ x y, onLine a = some x ∧ onLine b = some y ∧ x < y := by
  rcases a with a | ⟨_ | _⟩ | _ <;> rcases b with b | ⟨_ | _⟩ | _ <;>
    simp [Num.lt, onLine, WithBot.coe_lt_coe, WithBot.bot_lt_coe, WithTop.coe_lt_coe]
  rw [← WithBot.coe_top, WithBot.coe_lt_coe]
  exact WithTop.coe_lt_top _

/-- Infinite distances do not come up: the distance of stored vectors is a number, or it is not-a-number because one of them was not made of numbers. -/
theorem never_infinite (avx : Bool) (junk : ℕ → ℕ → Num) (v q : List Num) (hl : v.length = q.length) (hn : v.length ≤ 2 ^ 22) :
    ∃ d, distance ops avx junk .cosine (normalize ops v) (normalize ops q) = .ok d ∧ (∀ s, d ≠ .inf s) ∧
      ((∃ x, d = .fin x) ↔ ∀ x ∈ v ++ q, ∃ a, x = .fin a) := by
  have hvec : ∀ l : List Num, (∀ x ∈ l, ∃ a, x = .fin a) → ∃ l', l = vec l' := by
    intro l hl
    induction l with
    | nil => exact ⟨[], rfl⟩
    | cons x l ih =>
      obtain ⟨a, rfl⟩ := hl x (by simp)
      obtain ⟨l', rfl⟩ := ih fun x hx => hl x (by simp [hx])
      exact ⟨a :: l', rfl⟩
  by_cases hv : ∀ x ∈ v, ∃ a, x = .fin a
  · by_cases hq : ∀ x ∈ q, ∃ a, x = .fin a
    · obtain ⟨v', rfl⟩ := hvec v hv
      obtain ⟨q', rfl⟩ := hvec q hq
      obtain ⟨d, hd⟩ := C64.cosine_always_finite avx junk v' q' (by simpa [vec] using hl) (by simpa [vec] using hn)
      refine ⟨_, hd, by simp, ?_⟩
      simp only [Num.fin.injEq, exists_eq', List.mem_append, true_iff]
      rintro x (hx | hx)
      · exact hv x hx
      · exact hq x hx
    · push Not at hq
      obtain ⟨x, hx, hn⟩ := hq
      refine ⟨.nan, ?_, by simp, ?_⟩
      · rw [C63.symmetric]
        exact distance_not_a_number avx junk q _ (by rw [← hl]; exact ((paramsNum_ok avx junk).norm v).symm) ⟨x, hx, hn⟩
      · simp only [reduceCtorEq, exists_false, false_iff]
        intro h
        obtain ⟨a, ha⟩ := h x (by simp [hx])
        exact hn a ha
  · push Not at hv
    obtain ⟨x, hx, hn⟩ := hv
    have hl' : v.length = (normalize ops q).length := by
      rw [hl]; exact ((paramsNum_ok avx junk).norm q).symm
    refine ⟨.nan, distance_not_a_number avx junk v _ hl' ⟨x, hx, hn⟩, by simp, ?_⟩
    simp only [reduceCtorEq, exists_false, false_iff]
    intro h
    obtain ⟨a, ha⟩ := h x (by simp [hx])
    exact hn a ha

/-- A collection whose only document has such a vector: every search by a vector of its length returns the document, with a distance that
is not a number, whatever the limit. -/
theorem returned_whatever_asked (avx : Bool) (junk : ℕ → ℕ → Num) (v : List Num) (hv : ∃ x ∈ v, ∀ a, x ≠ .fin a)
    (vo : VecOracle (List Num)) (sched : Graph.Scheds Num) (level : ℕ) (q : List Num) (hq : q.length = v.length) (max : Num) (sched' : Graph.Scheds Num) :
    ∃ s, Index.add (paramsNum avx junk) vo sched init 0 v level = (s, none) ∧
      (s.graph (paramsNum avx junk)).knnMaxDist sched' q max 800 none = .ok ([0], [.nan]) := by
  have hL : v.length ≠ 0 := by
    obtain ⟨x, hx, _⟩ := hv
    intro h0
    rw [List.length_eq_zero_iff.1 h0] at hx
    cases hx
  have hadd : Index.add (paramsNum avx junk) vo sched init 0 v level = (({ init with once := true, entry := 0, maxLayer := 0 } : Index (List Num)).put
      { id := 0, level := 0, conns := [[]], maint := false, vec := normalize ops v, committed := false }, none) := by
    unfold Index.add
    rw [if_neg (show ¬ (paramsNum avx junk).metric.len v = 0 from hL)]
    rfl
  refine ⟨_, hadd, ?_⟩
  have hnl : ∀ u, (normalize ops u).length = u.length := (paramsNum_ok avx junk).norm
  have hd1 : (metricNum avx junk).dist (normalize ops v) (normalize ops q) = some .nan := by
    show (distance ops avx junk .cosine _ _).toOption = _
    rw [distance_not_a_number avx junk v _ (by rw [hnl, hq]) hv]; rfl
  have hd2 : (metricNum avx junk).dist (normalize ops q) (normalize ops v) = some .nan := by
    show (distance ops avx junk .cosine _ _).toOption = _
    rw [C63.symmetric, distance_not_a_number avx junk v _ (by rw [hnl, hq]) hv]; rfl
  generalize hg : (({ init with once := true, entry := 0, maxLayer := 0 } : Index (List Num)).put
      { id := 0, level := 0, conns := [[]], maint := false, vec := normalize ops v, committed := false }).graph (paramsNum avx junk) = g
  have hget : g.get 0 = some { id := 0, level := 0, conns := [[]], maint := false, vec := normalize ops v, committed := false } := by
    rw [← hg]; rfl
  have hent : g.distNodeVec 0 (normalize ops q) = some .nan := by
    unfold Graph.distNodeVec
    rw [hget, ← hg]
    show (if (normalize ops v).length = 0 then none else if (normalize ops q).length = 0 then none else
      (metricNum avx junk).dist (normalize ops v) (normalize ops q)) = _
    rw [if_neg (by rw [hnl]; exact hL), if_neg (by rw [hnl, hq]; exact hL), hd1]
  have hstart : Search.start (g.senv (normalize ops q) none) [⟨0, .nan⟩] 0 =
      .ok ⟨#[⟨0, .nan⟩], #[⟨0, .nan⟩], Search.markEntries (ListSet.new (g.senv (normalize ops q) none).visitedSize) [0], .nan, 0⟩ := by
    have hdn : Search.distToNode (g.senv (normalize ops q) none) 0 = some .nan := by
      unfold Search.distToNode
      rw [show (g.senv (normalize ops q) none).get 0 = _ from hget]
      show g.metric.dist (normalize ops q) (normalize ops v) = _
      rw [← hg]
      exact hd2
    have hvi : Search.viable (g.senv (normalize ops q) none) 0 0 = true := by rw [← hg]; rfl
    have hen : Search.enter (g.senv (normalize ops q) none) 0 (#[], #[]) ⟨0, .nan⟩ = (#[⟨0, .nan⟩], #[⟨0, .nan⟩]) := by
      unfold Search.enter
      simp only [hvi, if_true]
      rfl
    unfold Search.start
    simp only [List.foldl_cons, List.foldl_nil, hen, List.map_cons, List.map_nil]
    unfold Search.worst0
    rw [show Queue.top (#[⟨0, Num.nan⟩] : Array (Item Num)) = some ⟨0, .nan⟩ from rfl]
    simp only [hdn]
  have hlay : Search.searchLayer (g.senv (normalize ops q) none) (sched' 0) [⟨0, .nan⟩] 800 0 = .ok #[⟨0, .nan⟩] := by
    unfold Search.searchLayer
    rw [hstart]
    simp only
    have hk : (g.senv (normalize ops q) none).keys.length = 1 := by rw [← hg]; rfl
    rw [hk]
    rw [show [(⟨0, .nan⟩ : Item Num)].length + 1 + 1 = 2 + 1 from rfl, Search.loop]
    rw [show Queue.pop Queue.lessMin (#[⟨0, Num.nan⟩] : Array (Item Num)) = some (⟨0, .nan⟩, #[]) from rfl]
    simp only
    rw [show Dist.lt Num.nan Num.nan = false from rfl]
    simp only [Bool.false_and, if_false, Bool.false_eq_true]
    rw [show (g.senv (normalize ops q) none).get 0 = _ from hget]
    simp only [Nat.not_lt_zero, if_false, List.getElem?_cons_zero]
    unfold Search.expand
    simp only [Search.markNew, Search.distances, List.filterMap_nil]
    rw [List.perm_nil.1 ((sched' 0).perm 0 [])]
    rfl
  unfold Graph.knnMaxDist Graph.retained
  rw [show g.norm q = normalize ops q by rw [← hg]; rfl, show g.entry = 0 by rw [← hg]; rfl, hent]
  simp only
  rw [show g.maxLayer = 0 by rw [← hg]; rfl]
  simp only [Graph.descend, hlay]
  cases max <;> rfl

/-! ## cases -/

def books : Str := ['b', 'o', 'o', 'k', 's']
def E : Env Num Num := ⟨paramsNum false fun _ _ => .nan, false⟩
/-- `[x, y]` -/
def xy (x y : ℚ) : List Num := [.fin x, .fin y]
/-- `[1e39, 1]` as 32-bit numbers -/
def huge : List Num := [.inf false, .fin 1]
/-- a document as it comes through the REST interface -/
def docV (id : Char) (v : List Num) : Option (Doc Num) := some ⟨[id], [(vectorName, .list (v.map fun x => .number (some x)))]⟩
def oracle (vs : List (List Num)) : Oracle Num Num :=
  { corpi := fun _ _ => .vec [.fin 1, .fin 1], vo := fun _ _ _ _ id => (vs.map (normalize ops))[id]?, sched := fun _ _ => Sched.id, level := fun _ => 0 }
def opened : List (Req Num Num) := [.login true, .openPod true, .create (oracle []) books []]
def adding (ids : List Char) (vs : List (List Num)) : Req Num Num := .add (oracle vs) books [] (List.zipWith docV ids vs)
/-- the answer to a search, as the documents' ids and the distances -/
def answer (rs : List (Req Num Num)) (q : List Num) (max : ℚ) : Option (List (Option (Val Num)) × List Num) :=
  match (serve E (run E (World.fresh true []) rs) (.nearVector (oracle []) books q (.fin max) 0)).2 with
  | .near docs ds => some (docs.map fun p => p.get idName, ds)
  | _ => none

/-- With the document `b` of vector [1e39, 1] in the collection, a search for [1, 0] within 1/2 returns it, and misses the document `c`
of vector [1, 1], which it returns (at a distance of about 0.29) if `b` is not there. -/
theorem hides_others :
    answer (opened ++ [adding ['a', 'b', 'c', 'd', 'e'] [xy 1 0, huge, xy 1 1, xy 0 1, xy (-1) 0]]) (xy 1 0) (1 / 2) =
      some ([some (.str ['b']), some (.str ['a'])], [.nan, .fin 0, .fin 0, .fin 0, .fin 0]) ∧
    answer (opened ++ [adding ['a', 'c', 'd', 'e'] [xy 1 0, xy 1 1, xy 0 1, xy (-1) 0]]) (xy 1 0) (1 / 2) =
      some ([some (.str ['a']), some (.str ['c'])], [.fin 0, .fin (4913933 / 2 ^ 24), .fin 0, .fin 0]) := by
  decide +kernel

/-- A request to add `a` and the document of vector [1e39, 1] fails; after a restart a request to add `c` of vector [0, 1] succeeds and is
given the number of `a`; a search for [0, 1] then returns `a`, of vector [1, 0], with distance zero. -/
theorem wrong_document_returned :
    let w := run E (World.fresh true []) opened
    let w' := run E (serve E w (adding ['a', 'p'] [xy 1 0, huge])).1 [.restart, .login true, .openPod true]
    (serve E w (adding ['a', 'p'] [xy 1 0, huge])).2 = .failed .error ∧
    (serve E w' (adding ['c'] [xy 0 1])).2 = .done ∧
    (serve E (serve E w' (adding ['c'] [xy 0 1])).1 (.nearVector (oracle []) books (xy 0 1) (.fin 0) 0)).2 =
      .near [[(idName, .str ['a']), (hnswName, .int 0)]] [.fin 0] := by
  decide +kernel

def vo : VecOracle (List Num) := fun _ _ _ _ => some (xy 1 0)
def sch : Graph.Scheds Num := fun _ => Sched.id
def P : Params (List Num) Num := paramsNum false fun _ _ => .nan

/-- `flush_succeeds_partial` and `numbers_are_stored_partial`: numbers so large or small that their squares are out of range; a flush
writes both vertices -/
example : Fed P (fun v => ∀ x ∈ v, ∃ a, x = .fin a)
      (Index.add P vo sch (Index.add P vo sch Index.init 0 (xy (2 ^ 127) 0) 0).1 1 (xy (1 / 2 ^ 149) 0) 0).1 ∧
    (flush P (Index.add P vo sch (Index.add P vo sch Index.init 0 (xy (2 ^ 127) 0) 0).1 1 (xy (1 / 2 ^ 149) 0) 0).1 [0, 1] 2).1.kv.keys = [0, 1] := by
  refine ⟨.add vo sch 1 _ 0 (.add vo sch 0 _ 0 .init ?_) ?_, by decide +kernel⟩ <;>
  · intro x hx
    simp only [xy, List.mem_cons, List.not_mem_nil, or_false] at hx
    rcases hx with rfl | rfl <;> exact ⟨_, rfl⟩

theorem poisoned_of {s : Index (List Num)} {x : ℕ} (h : (s.cache.get x).map (fun v => (v.committed, P.jsonOk v.vec)) = some (false, false)) :
    Poisoned P x s := by
  cases hc : s.cache.get x with
  | none => rw [hc] at h; cases h
  | some v =>
    rw [hc] at h
    simp only [Option.map_some, Option.some.injEq, Prod.mk.injEq] at h
    exact ⟨v, hc, h⟩

/-- `accepted_anyway`, `distance_not_a_number` and `returned_whatever_asked` -/
example : Hist P (Index.add P vo sch Index.init 0 (xy 3 4) 0).1 [xy 3 4] ∧ (∀ u ∈ [xy 3 4], u.length = huge.length) ∧
    (∃ x ∈ huge, ∀ a, x ≠ .fin a) ∧ (∀ l o k id, id ≤ 1 → ∃ w, vo l o k id = some w ∧ w.length = huge.length) ∧ (xy 3 4).length = huge.length := by
  refine ⟨Hist.add (vs := []) vo sch (xy 3 4) 0 .init rfl, by simp [xy, huge], ⟨_, List.mem_cons_self, by simp⟩, fun _ _ _ _ _ => ⟨_, rfl, rfl⟩, rfl⟩

/-- `poison_stays`: [1e39, 1] is added under 1, then a flush is attempted and [0, 1] added under 2 -/
example : ∃ s t, Fed P (fun _ => True) s ∧ Poisoned P 1 s ∧ Without P 1 s t ∧ t.cache.keys = [0, 1, 2] ∧ t.kv.keys = [0] := by
  refine ⟨(Index.add P vo sch (Index.add P vo sch Index.init 0 (xy 3 4) 0).1 1 huge 0).1, _,
    .add vo sch 1 _ 0 (.add vo sch 0 _ 0 .init trivial) trivial, poisoned_of (by decide +kernel),
    .add vo sch 2 (xy 0 1) 0 (.flush [0, 1] 2 .refl (by decide)) (by decide), by decide +kernel, by decide +kernel⟩

/-- `requests_fail`: after the failed request to add `a` and `p`, a search and two requests to add one document each -/
example : let w := run E (World.fresh true []) (opened ++ [adding ['a', 'p'] [xy 1 0, huge]])
    Poisoned E.P 1 (w.coll (ns ++ books)).idx ∧ w.count (ns ++ books) = 0 ∧ (w.coll (ns ++ books)).dbOpen = true ∧
    (∀ r ∈ [Req.nearVector (oracle []) books (xy 1 1) (.fin 1) 0, adding ['c'] [xy 0 1]], Spares books 1 0 r) ∧
    Spares books 1 0 (adding ['d'] [xy 1 1]) := by
  refine ⟨poisoned_of (by decide +kernel), by decide +kernel, by decide +kernel, ?_, .inr ⟨rfl, .inl (by decide)⟩⟩
  intro r hr
  simp only [List.mem_cons, List.not_mem_nil, or_false] at hr
  rcases hr with rfl | rfl
  · trivial
  · exact .inr ⟨rfl, .inl (by decide)⟩

-- comparisons with infinities and not-a-number; vectors of numbers and one that is not
example : Num.lt (.fin 3) (.inf false) = true ∧ Num.lt (.inf true) (.fin (-3)) = true ∧ Num.lt (.fin 3) (.inf true) = false ∧ Num.lt .nan (.inf false) = false ∧
    Num.lt (.fin 3) .nan = false := by decide
example : (xy 3 4).length = huge.length ∧ (xy 3 4).length ≤ 2 ^ 22 ∧ ∃ x ∈ huge, ∀ a, x ≠ .fin a := by
  refine ⟨by decide, by decide, ?_⟩
  simp [huge]

end C66
end Fave
