import Verif.Lemmas.History
import Verif.Lemmas.KnnFrame
/-!
# Searches on the states of a history

Leftovers of refused vectors are stored under unused numbers; searches cannot reach them.
-/
namespace Fave.Index
open Queue Search Spec Graph
variable {V D : Type} [Dist D]

/-- the graph of the first `n` vectors only -/
def firstGraph (P : Params V D) (s : Index V) (n : Nat) : Graph V D :=
  { s.graph P with get := fun id => if id < n then s.get id else none, keys := List.range n }

theorem firstGraph_get {P : Params V D} {s : Index V} {n id : Nat} {v : Vertex V} (h : (firstGraph P s n).get id = some v) :
    id < n ∧ s.get id = some v := by
  have h : (if id < n then s.get id else none) = some v := h
  split at h
  · rename_i hid; exact ⟨hid, h⟩
  · cases h

theorem firstGraph_ok {P : Params V D} (hP : P.Ok) {s : Index V} {vs : List V} (h : Inv P s vs) : (firstGraph P s vs.length).Ok := by
  have hs := h.small
  have hz := hP.sizes
  refine ⟨?_, ?_, ?_, ?_⟩
  · intro id v hv; exact List.mem_range.mpr (firstGraph_get hv).1
  · intro id v hv; have := (firstGraph_get hv).1; show id < P.visitedSize; omega
  · intro id v hv; have := (firstGraph_get hv).1; show id < P.cacheSize; omega
  · intro id v hv l hl
    obtain ⟨hid, hg⟩ := firstGraph_get hv
    obtain ⟨w, a1, _, a3, _⟩ := h.wf id hid
    rw [a1] at hg; cases hg
    exact ⟨_, List.getElem?_eq_getElem (by omega)⟩

theorem firstGraph_search {P : Params V D} (hP : P.Ok) {s : Index V} {vs : List V} (h : Inv P s vs) (hn : vs ≠ [])
    (sched : Scheds D) (q : V) (max : D) (ef : Int) (allow : Option (Nat → Bool)) :
    (s.graph P).knnMaxDist sched q max ef allow = (firstGraph P s vs.length).knnMaxDist sched q max ef allow := by
  refine knnMaxDist_frame (g := firstGraph P s vs.length) (g' := s.graph P) (C := fun id => id < vs.length) ?_ ?_ (h.entry hn)
      rfl rfl rfl rfl rfl rfl rfl ?_ ?_ (keysOk P s) sched q max ef allow
  · intro id hid
    have e : (firstGraph P s vs.length).get id = s.get id := if_pos hid
    rw [e]; rfl
  · intro l id v links b hid hg hl hb
    obtain ⟨_, hg⟩ := firstGraph_get hg
    obtain ⟨w, a1, _, _, a4⟩ := h.wf id hid
    rw [a1] at hg; cases hg
    exact ((a4 l links hl).2.2.2 b hb).1
  · intro id hid
    exact Nat.lt_of_lt_of_le hid (Nat.le_trans h.small hP.sizes)
  · intro q allow; exact (firstGraph_ok hP h).keysOk q allow

/-- the distance to the start of a search -/
theorem hist_entry_dist {P : Params V D} (hP : P.Ok) (hdi : ∀ a b, P.metric.len a = P.metric.len b → ∃ d, P.metric.dist a b = some d)
    {s : Index V} {vs : List V} (h : Inv P s vs) (hn : vs ≠ []) {q : V} (hq : ∀ u ∈ vs, P.metric.len u = P.metric.len q) :
    ∃ d, (firstGraph P s vs.length).distNodeVec s.entry (P.norm q) = some d := by
  have hent := h.entry hn
  obtain ⟨v, hv, _⟩ := h.wf s.entry hent
  have hu : vs[s.entry]? = some vs[s.entry] := List.getElem?_eq_getElem hent
  have hvu := h.holds _ _ v hu hv
  have hlv := hq vs[s.entry] (List.getElem_mem hent)
  obtain ⟨d0, hd0, hd1⟩ := h.dim
  have hle := hd1 vs[s.entry] (List.getElem_mem hent)
  have hg : (firstGraph P s vs.length).get s.entry = some v := by
    show (if s.entry < vs.length then s.get s.entry else none) = _
    rw [if_pos hent]; exact hv
  unfold Graph.distNodeVec
  rw [hg]
  simp only
  have hl1 : P.metric.len v.vec = P.metric.len vs[s.entry] := by rw [hvu, hP.norm]
  have hl2 : P.metric.len (P.norm q) = P.metric.len q := hP.norm q
  obtain ⟨d, hd⟩ := hdi v.vec (P.norm q) (by omega)
  refine ⟨d, ?_⟩
  show (if P.metric.len v.vec = 0 then none else if P.metric.len (P.norm q) = 0 then none else P.metric.dist v.vec (P.norm q)) = _
  rw [if_neg (show ¬ P.metric.len v.vec = 0 by omega), if_neg (show ¬ P.metric.len (P.norm q) = 0 by omega)]
  exact hd

/-- Searches on histories succeed. -/
theorem hist_search_total {P : Params V D} (hP : P.Ok) (hdi : ∀ a b, P.metric.len a = P.metric.len b → ∃ d, P.metric.dist a b = some d)
    (hsym : ∀ a b, P.metric.dist a b = P.metric.dist b a)
    {s : Index V} {vs : List V} (h : Inv P s vs) (hn : vs ≠ []) {q : V} (hq : ∀ u ∈ vs, P.metric.len u = P.metric.len q)
    (sched : Scheds D) (ef : Int) (allow : Option (Nat → Bool)) :
    ∃ r, (firstGraph P s vs.length).retained sched (P.norm q) ef allow = .ok r := by
  obtain ⟨d, hd⟩ := hist_entry_dist hP hdi h hn hq
  exact retained_total (firstGraph_ok hP h) hsym hd

end Fave.Index
