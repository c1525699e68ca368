import Verif.Lemmas.AddBlind
import Verif.Props.C17
/-!
# C49 — additions keep working after a restart

Full statement: after a restart (or whenever the vectors of earlier additions have left the caches of vectors, which hold 1000 vectors and are
filled by additions only — pkg/document/document.go:92,161-167,381-424), vectors can be added to a collection as before.

This is false.  Choosing neighbours reads the vectors of the candidates from those caches and gives up if one is missing (heuristic.go:89-101),
although the nodes themselves hold the vectors.  Proved: additions work while the collection holds fewer than `maxConn` vectors; and a collection of
`maxConn` vectors (30 in FaVe), flushed and reopened, refuses every further vector for ever, across later flushes, searches and restarts.
-/
namespace Fave.C49
open Index Queue Search
variable {V D : Type} [Dist D]

/-- Missing for the full statement: collections of `maxConn` or more vectors (see `refuses_for_ever`).  In a smaller collection, whatever
happened before and whatever the caches of vectors deliver, adding a vector of the collection's length succeeds. -/
theorem small_collections_grow_partial (P : Params V D) (hP : P.Ok)
    (hdist : ∀ a b, P.metric.len a = P.metric.len b → ∃ d, P.metric.dist a b = some d)
    (s : Index V) (vs : List V) (h : Hist P s vs) (hroom : vs.length < P.cacheSize) (hsmall : vs.length < P.maxConn)
    (vec : V) (hL : P.metric.len vec ≠ 0) (hlen : ∀ u ∈ vs, P.metric.len u = P.metric.len vec)
    (vo : VecOracle V) (sched : Graph.Scheds D) (level : Nat) :
    ∃ s', add P vo sched s vs.length vec level = (s', none) ∧ Hist P s' (vs ++ [vec]) := by
  have ht := add_small hP hdist (hist_inv hP h) hL hlen hroom hsmall vo sched level
  refine ⟨(add P vo sched s vs.length vec level).1, ?_, .add vo sched vec level h ?_⟩ <;>
  · rw [← ht]

/-- Any collection with one layer in use (as after every restart) of whose vectors at least `maxConn` can be reached from the search start: if
none of the old vectors is in the caches, the addition of a vector of the right length fails; it leaves an unlinked node under its number and changes
nothing else. -/
theorem refused_without_vectors (P : Params V D) (hP : P.Ok) (hm : 0 < P.maxConn) (hef : P.maxConn ≤ P.efC)
    (hdist : ∀ a b, P.metric.len a = P.metric.len b → ∃ d, P.metric.dist a b = some d)
    (s : Index V) (vs : List V) (h : Hist P s vs) (hv : vs ≠ []) (hroom : vs.length < P.cacheSize) (h0 : s.maxLayer = 0)
    (found : List Nat) (hnd : found.Nodup) (hmany : P.maxConn ≤ found.length) (hfound : ∀ x ∈ found, Walk s.get s.entry x)
    (vec : V) (hL : P.metric.len vec ≠ 0) (hlen : ∀ u ∈ vs, P.metric.len u = P.metric.len vec)
    (vo : VecOracle V) (hvo : ∀ l o k id, id < vs.length → vo l o k id = none) (sched : Graph.Scheds D) (level : Nat) :
    add P vo sched s vs.length vec level = (({ s with once := true } : Index V).put (newNode vs.length (P.norm vec) level), some .error) :=
  add_blind hP hdist hm hef (hist_inv hP h) hv hL hlen hroom (fun id hid => hvo 0 none 0 id hid) h0 found hnd hmany hfound sched level

/-- The states of a collection after a restart that follows a completed batch, during further attempts to add vectors while the vectors stored
before are in no cache: attempts of any vectors, completed flushes, loads of the search start, further restarts. -/
inductive Later (P : Params V D) (vs : List V) : Index V → Prop where
  | restart {s} : Hist P s vs → s.kvCount = some vs.length → Later P vs s.reopen
  | attempt {s} (vo : VecOracle V) (sched : Graph.Scheds D) (vec : V) (level : Nat) : Later P vs s →
      (∀ l o k id, id < vs.length → vo l o k id = none) → Later P vs (add P vo sched s vs.length vec level).1
  | flush {s s'} (order : List Nat) : Later P vs s → (∀ id ∈ s.cache.keys, id ∈ order) → flush P s order vs.length = (s', none) → Later P vs s'
  | load {s} : Later P vs s → Later P vs s.loadEntry
  | unread {s} : Later P vs s → Later P vs { s with entry := 0 }
  | again {s} : Later P vs s → Later P vs s.reopen

/-- what stays true -/
structure Stuck (P : Params V D) (vs : List V) (s : Index V) : Prop where
  inv : Inv P s vs
  layer : s.maxLayer = 0
  count : s.kvCount = some vs.length
  mem : Complete s.get vs.length
  kv : Complete s.reopen.get vs.length

/-- in such a state every addition fails -/
theorem stuck_add {P : Params V D} (hP : P.Ok) (hm : 0 < P.maxConn) (hef : P.maxConn ≤ P.efC)
    (hdist : ∀ a b, P.metric.len a = P.metric.len b → ∃ d, P.metric.dist a b = some d)
    {vs : List V} (hn : vs.length = P.maxConn) (hroom : vs.length < P.cacheSize) {s : Index V} (h : Stuck P vs s)
    (vo : VecOracle V) (sched : Graph.Scheds D) (vec : V) (level : Nat) (hvo : ∀ l o k id, id < vs.length → vo l o k id = none) :
    (add P vo sched s vs.length vec level).2 = some .error ∧ Stuck P vs (add P vo sched s vs.length vec level).1 := by
  have hv : vs ≠ [] := by intro e; rw [e] at hn; simp at hn; omega
  have hph : Stuck P vs (({ s with once := true } : Index V).put (newNode vs.length (P.norm vec) level)) := by
    have honce : Inv P ({ s with once := true } : Index V) vs :=
      ⟨⟨h.inv.ids.cache, h.inv.ids.kv⟩, h.inv.synced, h.inv.tombs, h.inv.wf, h.inv.entry, h.inv.small, h.inv.le, h.inv.kvwf, h.inv.kvEntry, h.inv.unflushed, h.inv.pos,
        fun hh => Bool.noConfusion (show true = false from hh), fun hh => absurd hh hv, h.inv.holds, h.inv.kvHolds, h.inv.dim⟩
    refine ⟨⟨idsOk_put honce.ids _, synced_put honce.synced rfl, honce.tombs, wf_put_above honce.wf rfl, honce.entry, honce.small, honce.le,
      honce.kvwf, honce.kvEntry, honce.unflushed, honce.pos, honce.started, honce.zero, holds_put_above honce.holds rfl, honce.kvHolds, honce.dim⟩,
      h.layer, h.count, ?_, h.kv⟩
    intro a b ha hb hab
    obtain ⟨v, links, g1, g2, g3⟩ := h.mem a b ha hb hab
    refine ⟨v, links, ?_, g2, g3⟩
    rw [get_put, if_neg (show a ≠ (newNode vs.length (P.norm vec) level).id from Nat.ne_of_lt ha)]; exact g1
  by_cases hL : P.metric.len vec = 0
  · unfold add
    rw [if_pos hL]
    exact ⟨rfl, h⟩
  · obtain ⟨dd, hd0, hd1⟩ := h.inv.dim
    by_cases hl : P.metric.len vec = dd
    · have hwalk : ∀ x ∈ List.range vs.length, Walk s.get s.entry x := by
        intro x hx
        rw [List.mem_range] at hx
        by_cases he : x = s.entry
        · rw [he]; exact .here
        · obtain ⟨v, links, g1, g2, g3⟩ := h.mem s.entry x (h.inv.entry hv) hx (fun e => he e.symm)
          exact .link .here g1 g2 g3
      have := add_blind hP hdist hm hef h.inv hv hL (fun u hu => by rw [hd1 u hu, hl]) hroom (fun id hid => hvo 0 none 0 id hid) h.layer
        (List.range vs.length) List.nodup_range (by simp; omega) hwalk sched level
      rw [this]
      exact ⟨rfl, hph⟩
    · rcases add_wrong_length hP h.inv hv (fun u hu => by rw [hd1 u hu]; exact fun e => hl e.symm) vo sched level with h1 | ⟨h1, _⟩ | h1
      · rw [h1]; exact ⟨rfl, h⟩
      · omega
      · rw [h1]; exact ⟨rfl, hph⟩

theorem later_stuck {P : Params V D} (hP : P.Ok) (hm : 0 < P.maxConn) (hef : P.maxConn ≤ P.efC)
    (hdist : ∀ a b, P.metric.len a = P.metric.len b → ∃ d, P.metric.dist a b = some d)
    {vs : List V} (hn : vs.length = P.maxConn) (hroom : vs.length < P.cacheSize) {s : Index V} (h : Later P vs s) : Stuck P vs s := by
  have hv : vs ≠ [] := by intro e; rw [e] at hn; simp at hn; omega
  induction h with
  | @restart s hh hc =>
    have hi := inv_restart (hist_inv hP hh)
    have hcomp := (hist_complete hP (by omega) hdist hh).2 (by rw [hc]; simp; omega)
    rw [hc] at hi hcomp
    simp only [Option.getD_some, List.take_length] at hi hcomp
    exact ⟨hi, rfl, hc, hcomp, hcomp⟩
  | attempt vo sched vec level _ hvo ih => exact (stuck_add hP hm hef hdist hn hroom ih vo sched vec level hvo).2
  | @flush s s' order _ ho hf ih =>
    have hi := inv_flush ih.inv hv ho hf
    obtain ⟨s1, hw, rfl⟩ := flush_ok ih.inv.ids hf
    refine ⟨hi, hw.maxLayer.trans ih.layer, rfl, ?_, ?_⟩
    · exact complete_congr (g := s.get) (g' := s1.get) (fun id => hw.get (dirty_cached ih.inv.ids order) id) ih.mem
    · exact complete_congr (g := s.get) (fun id => by
        rw [reopen_get, map_core_core]; exact wroteAll ih.inv.ids ih.inv.synced ho hw id) ih.mem
  | load _ ih => exact ⟨inv_load ih.inv, ih.layer, ih.count, ih.mem, ih.kv⟩
  | unread _ ih => exact ⟨inv_unread ih.inv, ih.layer, ih.count, ih.mem, ih.kv⟩
  | again _ ih =>
    have hi := inv_restart ih.inv
    rw [ih.count] at hi
    simp only [Option.getD_some, List.take_length] at hi
    exact ⟨hi, rfl, ih.count, ih.kv, ih.kv⟩

/-- The full statement fails: a collection of `maxConn` vectors that was flushed and reopened refuses every further vector, whatever its length,
level and the schedules, and the stored number of vectors never changes again. -/
theorem refuses_for_ever (P : Params V D) (hP : P.Ok) (hm : 0 < P.maxConn) (hef : P.maxConn ≤ P.efC)
    (hdist : ∀ a b, P.metric.len a = P.metric.len b → ∃ d, P.metric.dist a b = some d)
    (vs : List V) (hn : vs.length = P.maxConn) (hroom : vs.length < P.cacheSize) (s : Index V) (h : Later P vs s) :
    s.docCount = some vs.length ∧
    ∀ vo sched vec level, (∀ l o k id, id < vs.length → vo l o k id = none) → (add P vo sched s vs.length vec level).2 = some .error :=
  have hs := later_stuck hP hm hef hdist hn hroom h
  ⟨hs.count, fun vo sched vec level hvo => (stuck_add hP hm hef hdist hn hroom hs vo sched vec level hvo).1⟩

/-- a flush of vectors that can all be marshalled succeeds -/
theorem flush_total {P : Params V D} (hj : ∀ v, P.jsonOk v = true) (s : Index V) (order : List Nat) (n : Nat) :
    ∃ s', flush P s order n = (s', none) := by
  have : ∀ ws : List (Write V), (flushUpToBad P ws).2 = none := by
    intro ws
    induction ws with
    | nil => rfl
    | cons w ws ih =>
      cases w with
      | node v => unfold flushUpToBad; rw [hj]; exact ih
      | entry e => unfold flushUpToBad; exact ih
      | count c => unfold flushUpToBad; exact ih
  exact ⟨(flush P s order n).1, by unfold flush; simp only [this]⟩

/-- With FaVe's parameters: thirty vectors, all added and flushed successfully, then a restart; no vector can be added any more. -/
theorem thirty_vectors_then_restart (metric : Metric V D) (norm : V → V)
    (hlens : ∀ a b, metric.len a ≠ metric.len b → metric.dist a b = none) (hnorm : ∀ v, metric.len (norm v) = metric.len v)
    (hdist : ∀ a b, metric.len a = metric.len b → ∃ d, metric.dist a b = some d) (u : V) (hu : metric.len u ≠ 0) :
    ∃ s, Hist (faveParams metric norm fun _ => true) s (List.replicate 30 u) ∧ Later (faveParams metric norm fun _ => true) (List.replicate 30 u) s ∧
      ∀ vo sched vec level, (∀ l o k id, id < 30 → vo l o k id = none) →
        (add (faveParams metric norm fun _ => true) vo sched s 30 vec level).2 = some .error := by
  have hP : (faveParams metric norm fun _ => true).Ok := ⟨by simp [faveParams], by simp [faveParams], hlens, hnorm⟩
  obtain ⟨s, h⟩ := C17.all_sizes_reachable _ hP hdist u hu 30 (by simp [faveParams])
  obtain ⟨s', hf⟩ := flush_total (P := faveParams metric norm fun _ => true) (fun _ => rfl) s s.cache.keys 30
  have h' : Hist (faveParams metric norm fun _ => true) s' (List.replicate 30 u) :=
    .flush s.cache.keys h (by simp) (fun _ h => h) (by simpa using hf)
  have hc : s'.kvCount = some 30 := by
    obtain ⟨s1, _, rfl⟩ := flush_ok (hist_inv hP h).ids hf; rfl
  have hl : Later (faveParams metric norm fun _ => true) (List.replicate 30 u) s'.reopen := .restart h' (by simpa using hc)
  refine ⟨s'.reopen, ?_, hl, fun vo sched vec level hvo => ?_⟩
  · have := Hist.restart h'
    rw [hc] at this
    simpa using this
  · have := (refuses_for_ever _ hP (by simp [faveParams]) (by simp [faveParams]) hdist _ (by simp [faveParams]) (by simp [faveParams]) _ hl).2 vo sched vec level
    simp only [List.length_replicate] at this
    exact this hvo

/-! Non-vacuity: `thirty_vectors_then_restart` for a concrete metric and vector; a seventh vector without any readable vector for the collection of six
vectors with flush and restart in its history (`maxConn` 8); and the refusal computed for a collection of two vectors with `maxConn` 2. -/
example : ∃ s, Hist (faveParams Ex.vmetric id fun _ => true) s (List.replicate 30 [3, 4]) ∧ Later (faveParams Ex.vmetric id fun _ => true) (List.replicate 30 [3, 4]) s ∧
    ∀ vo sched vec level, (∀ l o k id, id < 30 → vo l o k id = none) →
      (add (faveParams Ex.vmetric id fun _ => true) vo sched s 30 vec level).2 = some .error :=
  thirty_vectors_then_restart Ex.vmetric id (fun a b h => by simp only [Ex.vmetric] at *; rw [if_neg h]) (fun _ => rfl)
    (fun a b h => by simp only [Ex.vmetric] at *; rw [if_pos h]; exact ⟨_, rfl⟩) [3, 4] (by decide)
example : Hist Ex.PW Ex.w6 Ex.vecs ∧ Ex.vecs.length < Ex.PW.cacheSize ∧ Ex.vecs.length < Ex.PW.maxConn ∧
    (add Ex.PW (fun _ _ _ _ => none) Ex.sched Ex.w6 6 [7, 7] 1).2 = none :=
  ⟨Ex.histW6, by decide, by decide, by decide +kernel⟩
example : let two := (flush Ex.P (Ex.adds init [(0, 0), (1, 1)]).1 [1, 0] 2).1.reopen
    two.docCount = some 2 ∧ two.maxLayer = 0 ∧ (two.get 0).map (fun v => v.conns) = some [[1]] ∧
    (add Ex.P (fun _ _ _ id => if id = 2 then some [7, 7] else none) Ex.sched two 2 [7, 7] 0).2 = some .error ∧
    (add Ex.P (fun _ _ _ id => (Ex.vecs.take 2 ++ [[7, 7]])[id]?) Ex.sched two 2 [7, 7] 0).2 = none := by decide +kernel

end Fave.C49
