import Verif.Lemmas.AddFew
import Verif.Lemmas.LruPuts
import Verif.Props.C13
import Verif.Spec.ExampleIndex
/-!
# C86 — adding touches few vertices, and a flush writes what was touched
-/
namespace Fave.C86
open Index
variable {V D : Type} [Dist D]

/-- In any reachable state an addition, whatever its outcome, changes the new vertex and at most `maxConn` others on each layer it is
linked on; no vertex gets a link to any vertex but the new one; and the key-value table stays as it is. -/
theorem addition_touches_few (P : Params V D) (s : Index V) (h : Any P s) (vo : VecOracle V) (sched : Graph.Scheds D) (x : Nat) (vec : V)
    (level : Nat) (s' : Index V) (outcome : Option Err) (ha : add P vo sched s x vec level = (s', outcome)) :
    ∃ touched : List Nat, touched.length ≤ (Nat.min level s.maxLayer + 1) * P.maxConn + 1 ∧
      (∀ i, i ∉ touched → s'.get i = s.get i) ∧
      (∀ i, i ≠ x → ∀ v', s'.get i = some v' → ∃ v, s.get i = some v ∧
        ∀ l k, k ∈ v'.conns.getD l [] → k = x ∨ k ∈ v.conns.getD l []) ∧
      s'.kv = s.kv := by
  obtain ⟨L, hL, ht⟩ := add_touch P vo sched x vec level (any_inv h).1
  rw [ha] at ht
  exact ⟨x :: L, by simpa using hL, fun i hi => ht.get hi, ht.links, ht.kv⟩

/-- an addition to be made: number, vector, layer, and what the vector cache and the goroutines do -/
structure Adding (V D : Type) where
  x : Nat
  vec : V
  level : Nat
  vo : VecOracle V
  sched : Graph.Scheds D

/-- several additions, whatever their outcomes -/
def additions (P : Params V D) (s : Index V) (as : List (Adding V D)) : Index V :=
  as.foldl (fun s a => (add P a.vo a.sched s a.x a.vec a.level).1) s

/-- nothing waits to be written -/
def Clean (s : Index V) : Prop := ∀ i v, s.cache.get i = some v → v.committed = true

theorem additions_touch (P : Params V D) (as : List (Adding V D)) (s : Index V) (hi : IdsOk s) :
    ∃ L : List Nat, L.length ≤ (as.map (fun a => (a.level + 1) * P.maxConn + 1)).sum ∧
      (∀ i, i ∉ L → (additions P s as).cache.get i = s.cache.get i) := by
  induction as generalizing s with
  | nil => exact ⟨[], Nat.zero_le _, fun _ _ => rfl⟩
  | cons a as ih =>
    obtain ⟨L, hL, ht⟩ := add_touch P a.vo a.sched a.x a.vec a.level hi
    obtain ⟨M, hM, hm⟩ := ih _ ht.ids
    refine ⟨(a.x :: L) ++ M, ?_, ?_⟩
    · have h1 : (Nat.min a.level s.maxLayer + 1) * P.maxConn ≤ (a.level + 1) * P.maxConn :=
        Nat.mul_le_mul_right _ (Nat.succ_le_succ (Nat.min_le_left _ _))
      simp only [List.length_append, List.length_cons, List.map_cons, List.sum_cons]
      omega
    · intro i h
      simp only [List.mem_append, not_or] at h
      exact (hm i h.2).trans (ht.cache i h.1)

/-- From a reachable state in which nothing waits to be written (after a flush, after a restart): after any additions whatever their outcomes, a
flush makes at most `maxConn` writes for each layer of each of them, one for each of them, and two for the start and the count. -/
theorem flush_writes_few (P : Params V D) (s : Index V) (h : Any P s) (hc : Clean s) (as : List (Adding V D)) (order : List Nat)
    (ho : order.Nodup) (n : Nat) :
    ((additions P s as).flushWrites order n).length ≤ (as.map (fun a => (a.level + 1) * P.maxConn + 1)).sum + 2 := by
  obtain ⟨L, hL, hl⟩ := additions_touch P as s (any_inv h).1
  have hd : ((additions P s as).dirty order).length ≤ L.length := by
    unfold dirty
    have h1 : ∀ (o : List Nat), (o.filterMap (fun id => ((additions P s as).cache.get id).bind (fun v => if v.committed then none else some v))).length
        ≤ (o.filter (fun i => decide (i ∈ L))).length := by
      intro o
      induction o with
      | nil => exact Nat.le_refl _
      | cons i o ih =>
        rw [List.filterMap_cons, List.filter_cons]
        by_cases hi : i ∈ L
        · rw [if_pos (by simpa using hi)]
          split
          · simp only [List.length_cons]; omega
          · simp only [List.length_cons]; omega
        · rw [if_neg (by simpa using hi), hl i hi]
          have : (s.cache.get i).bind (fun v => if v.committed then none else some v) = none := by
            cases hg : s.cache.get i with
            | none => rfl
            | some v => simp [hc i v hg]
          rw [this]; exact ih
    have hn : (order.filter (fun i => decide (i ∈ L))).Nodup := ho.filter _
    refine Nat.le_trans (h1 order) (hn.length_le_of_subset ?_)
    intro i hi
    simpa using (List.mem_filter.mp hi).2
  unfold flushWrites
  simp only [List.length_append, List.length_map, List.length_cons, List.length_nil]
  omega

/-- With FaVe's parameters: a batch of `k` additions on the base layer costs at most `31 k + 2` writes, however large the collection is. -/
theorem fave_batch_cost (metric : Metric V D) (norm : V → V) (jsonOk : V → Bool) (s : Index V) (h : Any (faveParams metric norm jsonOk) s)
    (hc : Clean s) (as : List (Adding V D)) (ha : ∀ a ∈ as, a.level = 0) (order : List Nat) (ho : order.Nodup) (n : Nat) :
    ((additions (faveParams metric norm jsonOk) s as).flushWrites order n).length ≤ 31 * as.length + 2 := by
  refine Nat.le_trans (flush_writes_few _ s h hc as order ho n) (Nat.add_le_add_right ?_ 2)
  clear hc h
  induction as with
  | nil => exact Nat.le_refl _
  | cons a as ih =>
    have := ih (fun b hb => ha b (List.mem_cons_of_mem _ hb))
    simp only [List.map_cons, List.sum_cons, List.length_cons, ha a List.mem_cons_self] at this ⊢
    have h30 : (0 + 1) * (faveParams metric norm jsonOk).maxConn = 30 := rfl
    omega

theorem written_nodes (vs : List (Vertex V)) (s : Index V) (i : Nat) (v : Vertex V)
    (h : ((vs.map Write.node).foldl applyWrite s).cache.get i = some v) : v.committed = true ∨ (i ∉ vs.map Vertex.id ∧ s.cache.get i = some v) := by
  induction vs generalizing s with
  | nil => exact .inr ⟨by simp, h⟩
  | cons u vs ih =>
    rcases ih _ h with hc | ⟨hn, hg⟩
    · exact .inl hc
    · simp only [applyWrite, Tab.get_put] at hg
      split at hg
      · cases hg; exact .inl rfl
      · rename_i hne
        exact .inr ⟨by simp only [List.map_cons, List.mem_cons, not_or]; exact ⟨hne, hn⟩, hg⟩

/-- … and a completed flush leaves nothing waiting. -/
theorem flush_leaves_clean (P : Params V D) (s s' : Index V) (h : Any P s) (order : List Nat) (n : Nat)
    (ho : ∀ id ∈ s.cache.keys, id ∈ order) (hf : flush P s order n = (s', none)) : Clean s' := by
  have hi := any_inv h
  unfold flush at hf
  simp only [Prod.mk.injEq] at hf
  obtain ⟨h1, h2⟩ := hf
  rw [(flushUpToBad_prefix P _).2 h2] at h1
  unfold flushWrites at h1
  rw [List.foldl_append] at h1
  intro i v hv
  have hv' : (((s.dirty order).map Write.node).foldl applyWrite s).cache.get i = some v := by rw [← h1] at hv; exact hv
  rcases written_nodes _ _ _ _ hv' with hc | ⟨hn, hg⟩
  · exact hc
  · cases hc : v.committed with
    | true => rfl
    | false => exact absurd (List.mem_map.mpr ⟨v, mem_dirty ho hg hc, hi.1.cache _ _ hg⟩) hn

/-! ## With loading

Above, a vertex that is looked up but not changed leaves no trace.  In the code it does: `nodeByID` puts it into the node cache without the mark
`Committed`, which is not stored (index.go:620, vertex.go:26).  The following is about the node cache itself. -/

open Lru
variable {α : Type}

/-- how a vertex stands: not in memory, in memory and written, in memory and to be written -/
inductive Mark where
  | away | written | due
  deriving DecidableEq

/-- what an operation does to the standing of the vertex `k`; `stored`: is it in the table? -/
def Mark.after (stored : Bool) (k : Nat) (m : Mark) : Op α → Mark
  | .read j => if j = k ∧ m = .away ∧ stored = true then .due else m
  | .write j _ => if j = k then .due else m
  | .flush => if m = .due then .written else m

/-- the standing after the operations since the start of the process -/
def standing (stored : Bool) (k : Nat) (ops : List (Op α)) : Mark := ops.foldl (Mark.after stored k) .away

theorem standing_inv (cap : Nat) (kv : Tab α) (U : List Nat) (hU : U.length ≤ cap) (ops : List (Op α))
    (h : ∀ o ∈ ops, ∀ j, o.key = some j → j ∈ U) (k : Nat) :
    let s := run cap ⟨[], kv⟩ ops
    match standing (kv.get k).isSome k ops with
    | .away => lookup s k = none ∧ s.kv.get k = kv.get k
    | .written => ∃ e, lookup s k = some e ∧ e.committed = true
    | .due => ∃ e, lookup s k = some e ∧ e.committed = false := by
  induction hn : ops.length generalizing ops with
  | zero =>
    obtain rfl : ops = [] := List.eq_nil_of_length_eq_zero hn
    exact ⟨rfl, rfl⟩
  | succ n ih =>
    obtain ⟨ops, o, rfl⟩ : ∃ p' e, ops = p' ++ [e] := by
      rcases List.eq_nil_or_concat ops with rfl | ⟨p', e, h⟩
      · simp at hn
      · exact ⟨p', e, by simpa using h⟩
    have hops : ∀ o ∈ ops, ∀ j, o.key = some j → j ∈ U := fun o ho => h o (by simp [ho])
    have ih := ih ops hops (by simpa using hn)
    obtain ⟨h1, h2, h3, _⟩ := C13.fits_inv cap kv U hU ops hops
    have hrun : run cap ⟨[], kv⟩ (ops ++ [o]) = step cap (run cap ⟨[], kv⟩ ops) o := by unfold run; rw [List.foldl_append]; rfl
    have hst : standing (kv.get k).isSome k (ops ++ [o]) = Mark.after (kv.get k).isSome k (standing (kv.get k).isSome k ops) o := by
      unfold standing; rw [List.foldl_append]; rfl
    generalize run cap ⟨[], kv⟩ ops = s at h1 h2 h3 ih hrun
    simp only [hrun, hst]
    generalize standing (kv.get k).isSome k ops = m at ih
    have hlook : ∀ e : Ent α, e.key ∈ U → lookup (push cap s e) k = if k = e.key then some e else lookup s k := fun e he =>
      lookup_push (push_fits hU h1.nodup h2 he).1 k
    cases o with
    | read j =>
      have hj : j ∈ U := h (.read j) (by simp) j rfl
      have hr : step cap s (.read j) = (Lru.read cap s j).1 := rfl
      rw [hr]
      unfold Lru.read
      cases hl : lookup s j with
      | some e =>
        obtain ⟨hm, hk⟩ := lookup_some hl
        simp only
        have hsame : lookup (push cap s e) k = lookup s k := by
          rw [hlook e (hk ▸ hj)]
          split
          · rename_i he; rw [he, hk, hl]
          · rfl
        have hkv : (push cap s e).kv = s.kv := rfl
        have hm' : Mark.after (kv.get k).isSome k m (.read j : Op α) = m := by
          simp only [Mark.after]
          rw [if_neg]
          rintro ⟨rfl, rfl, _⟩
          simp only at ih; rw [hl] at ih; cases ih.1
        rw [hm', hsame, hkv]; exact ih
      | none =>
        simp only
        cases hg : s.kv.get j with
        | none =>
          simp only
          have hm' : Mark.after (kv.get k).isSome k m (.read j : Op α) = m := by
            simp only [Mark.after]
            rw [if_neg]
            rintro ⟨rfl, rfl, hs⟩
            simp only at ih
            rw [← ih.2, hg] at hs
            cases hs
          rw [hm']; exact ih
        | some a =>
          simp only
          rw [hlook ⟨j, a, false⟩ hj]
          have hkv : (push cap s (⟨j, a, false⟩ : Ent α)).kv = s.kv := rfl
          rw [hkv]
          by_cases hkj : k = j
          · subst hkj
            have hm0 : m = .away := by
              cases m with
              | away => rfl
              | written => obtain ⟨e, he, _⟩ := ih; rw [hl] at he; cases he
              | due => obtain ⟨e, he, _⟩ := ih; rw [hl] at he; cases he
            subst hm0
            have hs : (kv.get k).isSome = true := by rw [← ih.2, hg]; rfl
            have hm' : Mark.after (kv.get k).isSome k .away (.read k : Op α) = .due := by
              simp [Mark.after, hs]
            rw [hm']
            exact ⟨_, if_pos rfl, rfl⟩
          · have hm' : Mark.after (kv.get k).isSome k m (.read j : Op α) = m := by
              simp only [Mark.after]; rw [if_neg]; exact fun h => hkj h.1.symm
            rw [hm', if_neg (show ¬ k = (⟨j, a, false⟩ : Ent α).key from hkj)]
            exact ih
    | write j a =>
      have hj : j ∈ U := h (.write j a) (by simp) j rfl
      have hr : step cap s (.write j a) = push cap s ⟨j, a, false⟩ := rfl
      rw [hr, hlook ⟨j, a, false⟩ hj]
      have hkv : (push cap s (⟨j, a, false⟩ : Ent α)).kv = s.kv := rfl
      rw [hkv]
      by_cases hkj : k = j
      · subst hkj
        have hm' : Mark.after (kv.get k).isSome k m (.write k a : Op α) = .due := by simp [Mark.after]
        rw [hm']
        exact ⟨_, if_pos rfl, rfl⟩
      · have hm' : Mark.after (kv.get k).isSome k m (.write j a : Op α) = m := by
          simp only [Mark.after]; rw [if_neg]; exact fun h => hkj h.symm
        rw [hm', if_neg (show ¬ k = (⟨j, a, false⟩ : Ent α).key from hkj)]
        exact ih
    | flush =>
      have hr : step cap s .flush = flush cap s := rfl
      rw [hr, flush_eq h1, lookup_done s.ents s.kv]
      cases m with
      | away =>
        refine ⟨?_, ?_⟩
        · show (lookup s k).map done = none
          rw [ih.1]; rfl
        · show (written s.ents s.kv).get k = kv.get k
          rw [(written_get s.ents s.kv h1.nodup k).1 (lookup_none ih.1)]
          exact ih.2
      | written =>
        obtain ⟨e, he, _⟩ := ih
        refine ⟨done e, ?_, rfl⟩
        show (lookup s k).map done = some (done e)
        rw [he]; rfl
      | due =>
        obtain ⟨e, he, _⟩ := ih
        refine ⟨done e, ?_, rfl⟩
        show (lookup s k).map done = some (done e)
        rw [he]; rfl

/-- As long as everything fits into the node cache: a flush writes exactly the vertices that were changed since the last flush **or** loaded from the
table since then, each of them once. -/
theorem writes_changed_and_loaded (cap : Nat) (kv : Tab α) (U : List Nat) (hU : U.length ≤ cap) (ops : List (Op α))
    (h : ∀ o ∈ ops, ∀ j, o.key = some j → j ∈ U) :
    ((puts cap (run cap ⟨[], kv⟩ ops)).map Prod.fst).Nodup ∧
    ∀ k, k ∈ (puts cap (run cap ⟨[], kv⟩ ops)).map Prod.fst ↔ standing (kv.get k).isSome k ops = .due := by
  obtain ⟨h1, _, _, _⟩ := C13.fits_inv cap kv U hU ops h
  refine ⟨puts_nodup h1, fun k => ?_⟩
  have hs := standing_inv cap kv U hU ops h k
  simp only at hs
  rw [List.mem_map]
  constructor
  · rintro ⟨⟨k', a⟩, hm, rfl⟩
    have hl := (mem_puts h1 k' a).mp hm
    cases hst : standing (kv.get k').isSome k' ops with
    | due => rfl
    | away => rw [hst] at hs; rw [hl] at hs; cases hs.1
    | written =>
      rw [hst] at hs
      obtain ⟨e, he, hc⟩ := hs
      rw [hl] at he; cases he; cases hc
  · intro hst
    rw [hst] at hs
    obtain ⟨e, he, hc⟩ := hs
    obtain ⟨_, hk⟩ := lookup_some he
    refine ⟨(k, e.val), (mem_puts h1 k e.val).mpr ?_, rfl⟩
    rw [he]
    cases e with
    | mk a b c => simp at hc hk; rw [hc, hk]

/-- what was changed since the last flush -/
def changedSince (k : Nat) (ops : List (Op α)) : Bool :=
  ops.foldl (fun b o => match o with
    | .read _ => b
    | .write j _ => if j = k then true else b
    | .flush => false) false

theorem standing_new (k : Nat) (ops : List (Op α)) : (standing false k ops = .due ↔ changedSince k ops = true) := by
  unfold standing changedSince
  suffices h : ∀ (m : Mark) (b : Bool), (m = .due ↔ b = true) → (ops.foldl (Mark.after false k) m = .due ↔
      ops.foldl (fun b o => match o with
        | .read _ => b
        | .write j _ => if j = k then true else b
        | .flush => false) b = true) by
    exact h .away false (by simp)
  induction ops with
  | nil => intro m b h; exact h
  | cons o ops ih =>
    intro m b h
    rw [List.foldl_cons, List.foldl_cons]
    apply ih
    cases o with
    | read j => unfold Mark.after; simp; exact h
    | write j a => unfold Mark.after; by_cases hj : j = k <;> simp [hj]; exact h
    | flush => unfold Mark.after; by_cases hm : m = .due <;> simp [hm]

/-- The full claim: a flush writes exactly the vertices changed since the last flush.  It holds in the process that created the collection, as long as
everything fits into the node cache. -/
theorem writes_exactly_the_changed_partial (cap : Nat) (U : List Nat) (hU : U.length ≤ cap) (ops : List (Op α))
    (h : ∀ o ∈ ops, ∀ j, o.key = some j → j ∈ U) (k : Nat) :
    k ∈ (puts cap (run cap ⟨[], []⟩ ops)).map Prod.fst ↔ changedSince k ops = true := by
  rw [(writes_changed_and_loaded cap [] U hU ops h).2 k]
  exact standing_new k ops

/-- **In general it does not**: after a restart, everything that was looked up is written again: with nothing but look-ups, the flush writes
exactly the stored vertices among them … -/
theorem looked_up_is_written (cap : Nat) (kv : Tab α) (ks : List Nat) (hcap : ks.length ≤ cap) (k : Nat) :
    k ∈ (puts cap (run cap ⟨[], kv⟩ (ks.map Op.read))).map Prod.fst ↔ k ∈ ks ∧ (kv.get k).isSome = true := by
  rw [(writes_changed_and_loaded cap kv ks hcap _ ?_).2 k]
  · unfold standing
    suffices hg : ∀ m : Mark, m ≠ .written → ((ks.map (Op.read (α := α))).foldl (Mark.after (kv.get k).isSome k) m = .due ↔
        m = .due ∨ (k ∈ ks ∧ (kv.get k).isSome = true)) by
      rw [hg .away (by simp)]; simp
    induction ks with
    | nil => intro m _; simp
    | cons j ks ih =>
      intro m hm
      rw [List.map_cons, List.foldl_cons, ih (by simp at hcap; omega)]
      · unfold Mark.after
        by_cases hj : j = k
        · subst hj
          cases m <;> simp at hm ⊢
          cases hs : kv.get j <;> simp
        · have hj' : ¬ k = j := fun h => hj h.symm
          simp [hj, hj']
      · simp only [Mark.after]
        split
        · simp
        · exact hm
  · intro o ho j hj
    obtain ⟨i, hi, rfl⟩ := List.mem_map.mp ho
    cases hj; exact hi

/-- … although nothing changed: what is written is what was stored.  (Any operations that fit, any vertex that was not changed.) -/
theorem rewriting_changes_nothing (cap : Nat) (kv : Tab α) (U : List Nat) (hU : U.length ≤ cap) (ops : List (Op α))
    (h : ∀ o ∈ ops, ∀ j, o.key = some j → j ∈ U) (k : Nat) (hk : ∀ a, .write k a ∉ ops) (a : α)
    (hp : (k, a) ∈ puts cap (run cap ⟨[], kv⟩ ops)) : kv.get k = some a := by
  obtain ⟨h1, _, _, h4⟩ := C13.fits_inv cap kv U hU ops h
  have hl := (mem_puts h1 k a).mp hp
  have hv := h4 k
  have hn : C13.latest ops k = none := by
    unfold C13.latest
    suffices hg : ∀ (l : List (Op α)) (r : Option α), (∀ a, .write k a ∉ l) → l.foldl (fun r o => match o with
        | .write j a => if j = k then some a else r
        | _ => r) r = r from hg ops none hk
    intro l
    induction l with
    | nil => intro r _; rfl
    | cons o l ih =>
      intro r hr
      rw [List.foldl_cons, ih _ (fun a ha => hr a (List.mem_cons_of_mem _ ha))]
      cases o with
      | read j => rfl
      | flush => rfl
      | write j b =>
        simp only
        rw [if_neg]
        rintro rfl
        exact hr b List.mem_cons_self
  rw [hn, Option.none_or] at hv
  rw [← hv]
  unfold view
  rw [hl]

/-- a vertex is looked up after a restart and written again, though it never changed -/
theorem unchanged_is_written : (5, "v") ∈ puts 10 (run 10 ⟨[], [(4, "u"), (5, "v")]⟩ [.read 5, .read 9]) ∧
    changedSince 5 ([.read 5, .read 9] : List (Op String)) = false := by decide

/-! ## Non-vacuity -/

/-- an addition to four vectors on three layers that changes some of the others … -/
example : Any Ex.P Ex.s4 ∧ ∃ s', add Ex.P Ex.vo Ex.sched Ex.s4 4 [50, 0] 1 = (s', none) ∧ Ex.s4.maxLayer = 2 ∧
    ((List.range 5).filter (fun i => decide (s'.get i ≠ Ex.s4.get i))).length = 3 ∧
    (Nat.min 1 Ex.s4.maxLayer + 1) * Ex.P.maxConn + 1 = 5 := by
  refine ⟨hist_any Ex.hist4, _, rfl, ?_⟩
  decide +kernel

/-- … and two additions after a flush and a restart: the flush makes seven of the at most eight writes -/
example : Any Ex.P Ex.s4f.reopen ∧ Clean Ex.s4f.reopen ∧
    ((additions Ex.P Ex.s4f.reopen [⟨4, [50, 0], 0, Ex.vo, Ex.sched⟩, ⟨5, [13, 2], 0, Ex.vo, Ex.sched⟩]).flushWrites [0, 1, 2, 3, 4, 5] 6).length = 7 := by
  refine ⟨.restart (hist_any Ex.hist4f), nofun, ?_⟩
  decide +kernel

example : flush Ex.P Ex.s4 [3, 2, 1, 0] 4 = (Ex.s4f, none) ∧ (∀ id ∈ Ex.s4.cache.keys, id ∈ [3, 2, 1, 0]) := by decide +kernel

/-- a process that creates, flushes, looks up and changes … -/
example : puts 10 (run 10 ⟨[], []⟩ [.write 0 "a", .write 1 "b", .flush, .read 0, .write 1 "c"]) = [(1, "c")] := by decide +kernel
/-- … and one that was restarted in between -/
example : puts 10 (run 10 ⟨[], [(0, "a"), (1, "b"), (2, "d")]⟩ [.read 0, .read 0, .write 1 "c", .read 3]) = [(0, "a"), (1, "c")] := by decide +kernel

end Fave.C86
