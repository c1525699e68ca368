import Verif.Lemmas.Alike
import Verif.Props.C11
import Verif.Props.C49
/-!
# C102 — how additions are divided into requests does not matter

Every add request ends with a flush (document.go:443).  Claim: *adding the same vectors in the same order gives the same collection — the same vertices and links, the
same answers to all searches, the same stored entries — however they are divided into requests, as long as no request is empty and the process is not restarted in between.*

`division_does_not_matter`; behind it `same_looks_same_future`: what an addition does depends on the vertices, the entry point and the top layer only, not on what has
been flushed or which vertices are in the cache.  Both exceptions are real: `empty_request_matters`, `restart_matters`.
-/
namespace Fave.C102
open Index Spec Search Queue
variable {V D : Type} [Dist D]

/-- two indexes look the same: same vertices, entry point and top layer -/
def LooksSame (s t : Index V) : Prop := (∀ id, SameNode (t.get id) (s.get id)) ∧ t.entry = s.entry ∧ t.maxLayer = s.maxLayer

/-- one addition: behaviour of the vector cache and of the goroutines, vector, drawn level -/
structure Step (V D : Type) where
  vo : VecOracle V
  sched : Graph.Scheds D
  vec : V
  level : Nat

/-- additions under the numbers `n, n + 1, …`, all of which succeed (document.go:349-430) -/
def addAll (P : Params V D) : Index V → Nat → List (Step V D) → Option (Index V)
  | s, _, [] => some s
  | s, n, x :: xs =>
    match add P x.vo x.sched s n x.vec x.level with
    | (s, none) => addAll P s (n + 1) xs
    | _ => none

/-- successful add requests, each ending with a flush that succeeds (document.go:337-443); `order` is the order of the cache keys in the flushes -/
def requests (P : Params V D) (order : Index V → List Nat) : Index V → Nat → List (List (Step V D)) → Option (Index V)
  | s, _, [] => some s
  | s, n, b :: bs =>
    match addAll P s n b with
    | none => none
    | some s =>
      match flush P s (order s) (n + b.length) with
      | (s, none) => requests P order s (n + b.length) bs
      | _ => none

omit [Dist D] in
theorem core_of_same {a b : Option (Vertex V)} (h : SameNode a b) : a.map core = b.map core := by
  cases a <;> cases b
  · rfl
  · exact h.elim
  · exact h.elim
  · obtain ⟨h1, h2, h3, h4, h5⟩ := h
    simp [core, h1, h2, h3, h4, h5]

omit [Dist D] in
theorem LooksSame.of_alike {s t : Index V} (h : Alike s t) : LooksSame s t := ⟨fun id => C11.sameNode_of_core (h.get id), h.entry, h.maxLayer⟩

/-- Two reachable states of collections of the same size that look the same: every addition has the same outcome in both, and afterwards they look the same again; every
search has the same answer; a flush changes neither. -/
theorem same_looks_same_future (P : Params V D) (hP : P.Ok) (s t : Index V) (vs ws : List V) (hs : Hist P s vs) (ht : Hist P t ws) (hlen : ws.length = vs.length) (hn : vs ≠ [])
    (h : LooksSame s t) :
    (∀ vo sched vec level, (add P vo sched t vs.length vec level).2 = (add P vo sched s vs.length vec level).2 ∧
      LooksSame (add P vo sched s vs.length vec level).1 (add P vo sched t vs.length vec level).1) ∧
    (∀ σ q max ef allow, (t.graph P).knnMaxDist σ q max ef allow = (s.graph P).knnMaxDist σ q max ef allow) ∧
    (∀ order n t', flush P t order n = (t', none) → LooksSame s t') := by
  have hi := hist_inv hP hs
  have hj := hist_inv hP ht
  have ha : Alike s t := ⟨fun id => core_of_same (h.1 id), h.2.1, h.2.2, by rw [hi.tombs, hj.tombs]⟩
  have hwn : ws ≠ [] := by rintro rfl; exact hn (List.length_eq_zero_iff.mp hlen.symm)
  refine ⟨fun vo sched vec level => ?_, ha.knn, fun order n t' hf => .of_alike (ha.trans (.of_flush hj.ids hf))⟩
  obtain ⟨h1, h2⟩ := ha.add hP (vo := vo) (σ := sched) (vec := vec) (level := level) hi hj hlen hn hwn
  exact ⟨h1, .of_alike h2⟩

theorem addAll_alike {P : Params V D} (hP : P.Ok) (b : List (Step V D)) : ∀ {s t s' : Index V} {vs : List V}, Hist P s vs → Hist P t vs → Alike s t →
    (vs ≠ [] ∨ s = t) → addAll P s vs.length b = some s' →
    ∃ t', addAll P t vs.length b = some t' ∧ Alike s' t' ∧ Hist P s' (vs ++ b.map Step.vec) ∧ Hist P t' (vs ++ b.map Step.vec) ∧ (vs ≠ [] ∨ s' = t') := by
  induction b with
  | nil =>
    intro s t s' vs hs ht ha hor h
    cases h
    exact ⟨t, rfl, ha, by simpa using hs, by simpa using ht, hor⟩
  | cons x xs ih =>
    intro s t s' vs hs ht ha hor h
    unfold addAll at h
    have hi := hist_inv hP hs
    have hj := hist_inv hP ht
    have hstep : (add P x.vo x.sched t vs.length x.vec x.level).2 = (add P x.vo x.sched s vs.length x.vec x.level).2 ∧
        Alike (add P x.vo x.sched s vs.length x.vec x.level).1 (add P x.vo x.sched t vs.length x.vec x.level).1 := by
      by_cases hn : vs = []
      · rcases hor with h' | h'
        · exact absurd hn h'
        · subst h'; exact ⟨rfl, .refl _⟩
      · exact ha.add hP hi hj rfl hn hn
    cases hs1 : add P x.vo x.sched s vs.length x.vec x.level with
    | mk s1 e =>
      cases ht1 : add P x.vo x.sched t vs.length x.vec x.level with
      | mk t1 e' =>
        rw [hs1, ht1] at hstep
        simp only at hstep
        obtain ⟨h1, h2⟩ := hstep
        subst h1
        rw [hs1] at h
        cases e' with
        | some e => cases h
        | none =>
          simp only at h
          have hl : (vs ++ [x.vec]).length = vs.length + 1 := by simp
          rw [← hl] at h
          obtain ⟨t', g1, g2, g3, g4, g5⟩ := ih (.add x.vo x.sched x.vec x.level hs hs1) (.add x.vo x.sched x.vec x.level ht ht1) h2 (.inl (by simp)) h
          refine ⟨t', ?_, g2, by simpa using g3, by simpa using g4, ?_⟩
          · unfold addAll
            rw [ht1]
            simp only
            rw [← hl]
            exact g1
          · by_cases hn : vs = []
            · right
              rcases hor with h' | h'
              · exact absurd hn h'
              · subst h'
                rw [hs1] at ht1
                cases ht1
                rw [g1] at h; cases h; rfl
            · exact .inl hn

theorem addAll_append {P : Params V D} (a b : List (Step V D)) : ∀ (s : Index V) (n : Nat),
    addAll P s n (a ++ b) = (addAll P s n a).bind (fun s' => addAll P s' (n + a.length) b) := by
  induction a with
  | nil => intro s n; rfl
  | cons x xs ih =>
    intro s n
    simp only [List.cons_append, addAll]
    cases add P x.vo x.sched s n x.vec x.level with
    | mk s1 e =>
      cases e with
      | some e => rfl
      | none =>
        simp only
        rw [ih]
        have : n + 1 + xs.length = n + (x :: xs).length := by simp; omega
        rw [this]

/-- what a flush leaves: everything is stored -/
structure AllStored (s : Index V) (n : Nat) : Prop where
  count : s.kvCount = some n
  entry : s.kvEntry = some s.entry
  nodes : ∀ id, (s.reopen.get id).map core = (s.get id).map core

theorem requests_flat {P : Params V D} (hP : P.Ok) {order : Index V → List Nat} (ho : ∀ s : Index V, ∀ id ∈ s.cache.keys, id ∈ order s) (bs : List (List (Step V D))) :
    ∀ {s t s' : Index V} {vs : List V}, (∀ b ∈ bs, b ≠ []) → Hist P s vs → Hist P t vs → Alike s t → (vs ≠ [] ∨ s = t) → requests P order s vs.length bs = some s' →
    ∃ t', addAll P t vs.length bs.flatten = some t' ∧ Alike s' t' ∧ Hist P s' (vs ++ bs.flatten.map Step.vec) ∧
      (bs ≠ [] → AllStored s' (vs.length + bs.flatten.length)) := by
  induction bs with
  | nil =>
    intro s t s' vs _ hs ht ha hor h
    cases h
    exact ⟨t, rfl, ha, by simpa using hs, fun hb => absurd rfl hb⟩
  | cons b bs ih =>
    intro s t s' vs hne hs ht ha hor h
    unfold requests at h
    cases hb : addAll P s vs.length b with
    | none => rw [hb] at h; cases h
    | some s1 =>
      rw [hb] at h
      simp only at h
      obtain ⟨t1, g1, g2, g3, g4, _⟩ := addAll_alike hP b hs ht ha hor hb
      have hvs : vs ++ b.map Step.vec ≠ [] := by
        have := hne b (by simp)
        simp [this]
      cases hf : flush P s1 (order s1) (vs.length + b.length) with
      | mk s2 e =>
        rw [hf] at h
        cases e with
        | some e => cases h
        | none =>
          simp only at h
          have hl : (vs ++ b.map Step.vec).length = vs.length + b.length := by simp
          have hf' := hf
          rw [← hl] at h hf'
          have hi := hist_inv hP g3
          have hs2 : Hist P s2 (vs ++ b.map Step.vec) := .flush (order s1) g3 hvs (ho s1) hf'
          have ha2 : Alike s2 t1 := (Alike.of_flush hi.ids hf').symm.trans g2
          obtain ⟨t', k1, k2, k3, k4⟩ := ih (fun c hc => hne c (List.mem_cons_of_mem _ hc)) hs2 g4 ha2 (.inl hvs) h
          refine ⟨t', ?_, k2, by simpa using k3, fun _ => ?_⟩
          · rw [List.flatten_cons, addAll_append, g1]
            simp only [Option.bind_some]
            rw [← hl]; exact k1
          · by_cases hb0 : bs = []
            · subst hb0
              cases h
              obtain ⟨s3, hw, rfl⟩ := flush_ok hi.ids hf
              refine ⟨by simp, ?_, fun id => ?_⟩
              · show some s1.entry = some s3.entry
                rw [hw.entry]
              · have e1 : (({ s3 with kvEntry := some s1.entry, kvCount := some (vs.length + b.length) } : Index V).get id).map core = (s1.get id).map core :=
                  hw.get (dirty_cached hi.ids (order s1)) id
                rw [e1, reopen_get, map_core_core]
                exact wroteAll hi.ids hi.synced (ho s1) hw id
            · have := k4 hb0
              rw [hl] at this
              have e : vs.length + (b :: bs).flatten.length = vs.length + b.length + bs.flatten.length := by simp; omega
              rw [e]; exact this

/-- The same additions, divided into non-empty requests in two ways, from any state a collection can be in: the collections look the same afterwards, hold the same vectors,
every search has the same answer, and the storage has the same vertices, entry point and count. -/
theorem division_does_not_matter (P : Params V D) (hP : P.Ok) (s0 : Index V) (vs0 : List V) (h0 : Hist P s0 vs0) (bs cs : List (List (Step V D)))
    (hb : ∀ b ∈ bs, b ≠ []) (hc : ∀ c ∈ cs, c ≠ []) (hbc : bs.flatten = cs.flatten)
    (o1 o2 : Index V → List Nat) (ho1 : ∀ s : Index V, ∀ id ∈ s.cache.keys, id ∈ o1 s) (ho2 : ∀ s : Index V, ∀ id ∈ s.cache.keys, id ∈ o2 s)
    (s t : Index V) (hs : requests P o1 s0 vs0.length bs = some s) (ht : requests P o2 s0 vs0.length cs = some t) :
    LooksSame s t ∧ LooksSame s.reopen t.reopen ∧ t.kvEntry = s.kvEntry ∧ t.kvCount = s.kvCount ∧
    Hist P s (vs0 ++ bs.flatten.map Step.vec) ∧ Hist P t (vs0 ++ bs.flatten.map Step.vec) ∧
    ∀ σ q max ef allow, (t.graph P).knnMaxDist σ q max ef allow = (s.graph P).knnMaxDist σ q max ef allow := by
  obtain ⟨u, a1, a2, a3, a4⟩ := requests_flat hP ho1 bs hb h0 h0 (.refl s0) (.inr rfl) hs
  obtain ⟨w, b1, b2, b3, b4⟩ := requests_flat hP ho2 cs hc h0 h0 (.refl s0) (.inr rfl) ht
  rw [hbc, b1] at a1
  cases a1
  have hst : Alike s t := a2.trans b2.symm
  have hnil : ∀ ds : List (List (Step V D)), (∀ d ∈ ds, d ≠ []) → ds.flatten = [] → ds = [] := by
    intro ds hd hf
    cases ds with
    | nil => rfl
    | cons d ds =>
      rw [List.flatten_cons] at hf
      exact absurd (List.append_eq_nil_iff.mp hf).1 (hd d (by simp))
  have hkv : LooksSame s.reopen t.reopen ∧ t.kvEntry = s.kvEntry ∧ t.kvCount = s.kvCount := by
    by_cases hb0 : bs = []
    · have hc0 : cs = [] := hnil cs hc (by rw [← hbc, hb0]; rfl)
      subst hb0 hc0
      cases hs; cases ht
      exact ⟨.of_alike (.refl _), rfl, rfl⟩
    · have hc0 : cs ≠ [] := fun h => hb0 (hnil bs hb (by rw [hbc, h]; rfl))
      have x := a4 hb0
      have y := b4 hc0
      refine ⟨⟨fun id => C11.sameNode_of_core ((y.nodes id).trans ((hst.get id).trans (x.nodes id).symm)), rfl, rfl⟩, ?_, ?_⟩
      · rw [x.entry, y.entry, hst.entry]
      · rw [x.count, y.count, hbc]
  exact ⟨.of_alike hst, hkv.1, hkv.2.1, hkv.2.2, a3, by rw [hbc]; exact b3, hst.knn⟩

/-- If the vectors can be written, it does not depend on the division either whether the additions succeed. -/
theorem division_cannot_fail (P : Params V D) (hP : P.Ok) (hj : ∀ v, P.jsonOk v = true) (s0 : Index V) (vs0 : List V) (h0 : Hist P s0 vs0)
    (bs cs : List (List (Step V D))) (hb : ∀ b ∈ bs, b ≠ []) (hc : ∀ c ∈ cs, c ≠ []) (hbc : bs.flatten = cs.flatten)
    (o1 o2 : Index V → List Nat) (ho1 : ∀ s : Index V, ∀ id ∈ s.cache.keys, id ∈ o1 s) (ho2 : ∀ s : Index V, ∀ id ∈ s.cache.keys, id ∈ o2 s) :
    (requests P o1 s0 vs0.length bs).isSome = (requests P o2 s0 vs0.length cs).isSome := by
  have key : ∀ (o : Index V → List Nat), (∀ s : Index V, ∀ id ∈ s.cache.keys, id ∈ o s) → ∀ (ds : List (List (Step V D))) {s t u : Index V} {vs : List V},
      (∀ d ∈ ds, d ≠ []) → Hist P s vs → Hist P t vs → Alike t s → (vs ≠ [] ∨ t = s) → addAll P t vs.length ds.flatten = some u →
      (requests P o s vs.length ds).isSome = true := by
    intro o ho ds
    induction ds with
    | nil => intro s t u vs _ _ _ _ _ _; rfl
    | cons d ds ih =>
      intro s t u vs hne hs ht ha hor h
      rw [List.flatten_cons, addAll_append] at h
      cases hd : addAll P t vs.length d with
      | none => rw [hd] at h; cases h
      | some t1 =>
        rw [hd] at h
        simp only [Option.bind_some] at h
        obtain ⟨s1, g1, g2, g3, g4, _⟩ := addAll_alike hP d ht hs ha hor hd
        have hvs : vs ++ d.map Step.vec ≠ [] := by
          have := hne d (by simp)
          simp [this]
        have hl : (vs ++ d.map Step.vec).length = vs.length + d.length := by simp
        have hfn : (flush P s1 (o s1) (vs.length + d.length)).2 = none := by
          obtain ⟨s2, h2⟩ := C49.flush_total hj s1 (o s1) (vs.length + d.length)
          rw [h2]
        have hf : flush P s1 (o s1) (vs ++ d.map Step.vec).length = ((flush P s1 (o s1) (vs.length + d.length)).1, none) := by
          rw [hl]; exact Prod.ext rfl hfn
        have hi := hist_inv hP g4
        have hs2 : Hist P (flush P s1 (o s1) (vs.length + d.length)).1 (vs ++ d.map Step.vec) := .flush (o s1) g4 hvs (ho s1) hf
        have := ih (fun c hc => hne c (List.mem_cons_of_mem _ hc)) hs2 g3 (g2.trans (.of_flush hi.ids hf)) (.inl hvs) (by rw [hl]; exact h)
        unfold requests
        rw [g1]
        simp only
        rw [hl] at this
        cases hq : flush P s1 (o s1) (vs.length + d.length) with
        | mk s2 e =>
          rw [hq] at hfn this
          simp only at hfn
          subst hfn
          exact this
  rw [Bool.eq_iff_iff]
  constructor
  · intro h
    obtain ⟨s, hs⟩ := Option.isSome_iff_exists.mp h
    obtain ⟨u, a1, _⟩ := requests_flat hP ho1 bs hb h0 h0 (.refl s0) (.inr rfl) hs
    rw [hbc] at a1
    exact key o2 ho2 cs hc h0 h0 (.refl s0) (.inr rfl) a1
  · intro h
    obtain ⟨s, hs⟩ := Option.isSome_iff_exists.mp h
    obtain ⟨u, a1, _⟩ := requests_flat hP ho2 cs hc h0 h0 (.refl s0) (.inr rfl) hs
    rw [← hbc] at a1
    exact key o1 ho1 bs hb h0 h0 (.refl s0) (.inr rfl) a1

/-- The top layer is all that a restart after a request changes: if (and only if) it is 0, the collection looks the same after restart and loading of the entry point,
so that all later additions and searches have the same outcome. -/
theorem restart_matters_only_by_layers (P : Params V D) (hP : P.Ok) (s s' : Index V) (vs : List V) (h : Hist P s vs) (hn : vs ≠ []) (order : List Nat)
    (ho : ∀ id ∈ s.cache.keys, id ∈ order) (hf : flush P s order vs.length = (s', none)) :
    (LooksSame s s'.reopen.loadEntry ↔ s.maxLayer = 0) ∧
    (s.maxLayer = 0 →
      (∀ vo sched vec level, (add P vo sched s'.reopen.loadEntry vs.length vec level).2 = (add P vo sched s vs.length vec level).2 ∧
        LooksSame (add P vo sched s vs.length vec level).1 (add P vo sched s'.reopen.loadEntry vs.length vec level).1) ∧
      ∀ σ q max ef allow, (s'.reopen.loadEntry.graph P).knnMaxDist σ q max ef allow = (s.graph P).knnMaxDist σ q max ef allow) := by
  obtain ⟨h1, h2, _, _, h5, h6, _⟩ := C11.restart_after_flush_invisible P s s' (hist_any h) order vs.length ho hf
  have hiff : LooksSame s s'.reopen.loadEntry ↔ s.maxLayer = 0 :=
    ⟨fun hl => hl.2.2.symm, fun hm => ⟨fun id => C11.sameNode_of_core ((core_of_same (h1 id)).trans (core_of_same (h2 id))), h5.trans h6, hm.symm⟩⟩
  refine ⟨hiff, fun hm => ?_⟩
  have hr := (C11.restart_after_flush_keeps_vectors P hP s s' vs h hn order ho hf).1
  obtain ⟨a1, a2, _⟩ := same_looks_same_future P hP s s'.reopen.loadEntry vs vs h (.load hr) rfl hn (hiff.mpr hm)
  exact ⟨a1, a2⟩

/-! ## Cases -/

/-- the six vectors of the sample with levels -/
def six : List (Step (List Nat) Nat) := (Ex.vecs.zip [0, 1, 0, 2, 1, 0]).map fun p => ⟨Ex.vo, Ex.sched, p.1, p.2⟩
/-- all at once, and in three requests -/
def oneRequest : List (List (Step (List Nat) Nat)) := [six]
def threeRequests : List (List (Step (List Nat) Nat)) := [six.take 1, (six.drop 1).take 3, six.drop 4]
def links (s : Index (List Nat)) : List (Option (List (List Nat))) := (List.range 6).map fun i => (s.get i).map Vertex.conns

example : oneRequest.flatten = threeRequests.flatten ∧ (∀ b ∈ threeRequests, b ≠ []) ∧ six.length = 6 := ⟨rfl, by simp [threeRequests, six, Ex.vecs], rfl⟩
/-- the links of both, which are the same -/
example : (requests Ex.P (fun s => s.cache.keys) init 0 oneRequest).map links = (requests Ex.P (fun s => s.cache.keys.reverse) init 0 threeRequests).map links ∧
    (requests Ex.P (fun s => s.cache.keys) init 0 oneRequest).map (fun s => (s.entry, s.maxLayer, s.kvCount, s.kvEntry)) = some (3, 2, some 6, some 3) ∧
    (requests Ex.P (fun s => s.cache.keys) init 0 oneRequest).map links = some [some [[1, 3]], some [[0, 2, 5], [3, 4]], some [[1, 4]], some [[0, 5], [1], []], some [[2], [1]], some [[3, 1]]] := by decide +kernel
/-- `same_looks_same_future` for states that differ: with and without a flush in between -/
example : Ex.s4 ≠ Ex.s4f ∧ LooksSame Ex.s4 Ex.s4f := by
  refine ⟨by decide +kernel, .of_alike (Alike.of_flush (P := Ex.P) (order := [3, 2, 1, 0]) (n := 4) (hist_inv Ex.P_ok Ex.hist4).ids (by decide +kernel))⟩

/-- `restart_matters_only_by_layers`: three vectors on the base layer, and the sample of four vectors with top layer 2 -/
example : (requests Ex.P (fun s => s.cache.keys) init 0 [(six.take 3).map fun x => { x with level := 0 }]).map (fun s => (s.maxLayer, s.reopen.loadEntry.entry, links s.reopen == links s)) =
    some (0, 0, true) ∧ Ex.s4.maxLayer = 2 := by decide +kernel

/-- An empty request before the first vector matters: the flush stores a count, so the first vector is not taken for the first; it links to itself (see C08). -/
theorem empty_request_matters :
    (requests Ex.P (fun s => s.cache.keys) init 0 [[], six.take 2]).map links ≠ (requests Ex.P (fun s => s.cache.keys) init 0 [six.take 2]).map links ∧
    ((requests Ex.P (fun s => s.cache.keys) init 0 [[], six.take 2]).bind fun s => (s.get 0).map fun v => v.conns.any fun l => l.contains 0) = some true ∧
    ((requests Ex.P (fun s => s.cache.keys) init 0 [six.take 2]).bind fun s => (s.get 0).map fun v => v.conns.any fun l => l.contains 0) = some false := by
  decide +kernel

/-- A restart between two requests matters: the top layer is forgotten (C11), so the next vector is linked differently. -/
theorem restart_matters :
    ((requests Ex.P (fun s => s.cache.keys) init 0 [six.take 4]).bind fun s => requests Ex.P (fun s => s.cache.keys) s.reopen.loadEntry 4 [six.drop 4]).map links ≠
      (requests Ex.P (fun s => s.cache.keys) init 0 [six.take 4, six.drop 4]).map links := by decide +kernel

end Fave.C102
