import Verif.Lemmas.Lost
import Verif.Props.C100
/-!
# C101 — what is lost stays lost

Full claim: *a stored vector that the links do not lead to (C10, C100) is never found again, whatever is added afterwards, flushed, loaded or restarted;
the only remedy is to add the document again.*

`lost_stays_lost` for sets of vectors that nothing outside the set links to (single vectors, or groups that link to each other only),
`unreachable_stays_lost` for one vector that cannot be reached from the places where searches may start: the entry point, the stored entry point, and number 0
(where searches start after a failed read, insert.go:185-189).  Restarts go back to the stored links; for them the stored links count, too: they are the same
right after a flush.
-/
namespace Fave.C101
open Index Spec Search Queue
variable {V D : Type} [Dist D]

/-- none of the vertices numbered below `n` outside of `L` links into `L` -/
def CutOff (get : Nat → Option (Vertex V)) (n : Nat) (L : Nat → Prop) : Prop :=
  ∀ id, id < n → ¬ L id → ∀ v, get id = some v → ∀ links ∈ v.conns, ∀ b ∈ links, ¬ L b

/-- what can happen to a collection later: the same steps as in `Index.Hist` (Model/History); restarts only if `r` -/
inductive Later (P : Params V D) (r : Bool) (s0 : Index V) (vs0 : List V) : Index V → List V → Prop where
  | here : Later P r s0 vs0 s0 vs0
  | add {s s' vs} (vo : VecOracle V) (sched : Graph.Scheds D) (vec : V) (level : Nat) :
      Later P r s0 vs0 s vs → add P vo sched s vs.length vec level = (s', none) → Later P r s0 vs0 s' (vs ++ [vec])
  | refused {s s' vs e} (vo : VecOracle V) (sched : Graph.Scheds D) (vec : V) (level : Nat) :
      Later P r s0 vs0 s vs → (∀ u ∈ vs, P.metric.len u ≠ P.metric.len vec) →
      add P vo sched s vs.length vec level = (s', some e) → Later P r s0 vs0 s' vs
  | flush {s s' vs} (order : List Nat) :
      Later P r s0 vs0 s vs → (∀ id ∈ s.cache.keys, id ∈ order) → flush P s order vs.length = (s', none) → Later P r s0 vs0 s' vs
  | load {s vs} : Later P r s0 vs0 s vs → Later P r s0 vs0 s.loadEntry vs
  | unread {s vs} : Later P r s0 vs0 s vs → Later P r s0 vs0 { s with entry := 0 } vs
  | restart {s vs} : r = true → Later P r s0 vs0 s vs → Later P r s0 vs0 s.reopen (vs.take (s.kvCount.getD 0))

/-- the descent through the layers stays outside of a set that is cut off -/
theorem descend_outside {g : Graph V D} {L : Nat → Prop} (hk : g.Ok)
    (hcl : ∀ (l : Nat) (id : Nat) v links b, ¬ L id → g.get id = some v → v.conns[l]? = some links → b ∈ links → ¬ L b)
    (σ : Graph.Scheds D) (q : V) (level : Nat) {ep ep' : Item D} (hv : ∃ v, g.get ep.id = some v) (hx : ¬ L ep.id)
    (h : Graph.descend g σ q level ep = .ok ep') : ¬ L ep'.id ∧ ∃ v, g.get ep'.id = some v := by
  induction level generalizing ep with
  | zero => cases h; exact ⟨hx, hv⟩
  | succ level ih =>
    unfold Graph.descend at h
    split at h
    · cases h
    · rename_i res hres
      obtain ⟨v, hv'⟩ := hv
      have heps := Graph.epsOk_one hk.small q none hv'
      have hin := searchLayer_closed (C := fun i => ¬ L i) (hcl (level + 1)) (by simpa using hx) (hk.keysOk q none) heps hres
      have hget := (searchLayer_inv (P := fun y => ∃ v, g.get y.id = some v) (fun y hy => Graph.distToNode_get hy) heps (by simpa using ⟨v, hv'⟩) hres).1
      split at h
      · rename_i best _ hpop
        have hb : best ∈ res.toList := (pop_perm lessMax hpop).mem_iff.mpr (by simp)
        exact ih (hget best hb).1 (hin best hb) h
      · exact ih ⟨v, hv'⟩ hx h

/-- vectors that nothing else links to are returned by no search -/
theorem cut_off_never_found {P : Params V D} (hP : P.Ok) {s : Index V} {vs : List V} (h : Hist P s vs) (hn : vs ≠ []) {L : Nat → Prop}
    (he : ¬ L s.entry) (hun : CutOff s.get vs.length L)
    (σ : Graph.Scheds D) (q : V) (max : D) (ef : Int) (allow : Option (Nat → Bool)) (ids : List Nat) (ds : List D)
    (hk : (s.graph P).knnMaxDist σ q max ef allow = .ok (ids, ds)) : ∀ x ∈ ids, ¬ L x := by
  have hi := hist_inv hP h
  rw [firstGraph_search hP hi hn] at hk
  have hok := firstGraph_ok hP hi
  have hcl : ∀ (l : Nat) (id : Nat) v links b, ¬ L id → (firstGraph P s vs.length).get id = some v → v.conns[l]? = some links → b ∈ links → ¬ L b := by
    intro l id v links b hid hg hl hb
    exact hun id (firstGraph_get hg).1 hid v (firstGraph_get hg).2 links (List.mem_of_getElem? hl) b hb
  unfold Graph.knnMaxDist at hk
  split at hk
  · cases hk
  · rename_i r hr
    obtain ⟨d, ep, hd, hep, hr⟩ := Graph.retained_ok hr
    obtain ⟨v, hv, _⟩ := Graph.distNodeVec_some hd
    obtain ⟨hne, w, hw⟩ := descend_outside hok hcl σ _ _ (ep := ⟨_, d⟩) ⟨v, hv⟩ he hep
    have hres := searchLayer_closed (C := fun i => ¬ L i) (hcl 0) (by simpa using hne) (hok.keysOk _ allow) (Graph.epsOk_one hok.small _ allow hw) hr
    cases hk
    intro x hmem
    obtain ⟨y, hy, rfl⟩ := List.mem_map.mp hmem
    have hy := (Graph.keepInRange_sublist _ _).subset hy
    have hy := (drain_perm lessMax r).mem_iff.mp (List.mem_reverse.mp hy)
    exact hres y hy

omit [Dist D] in
theorem cutOff_congr {g g' : Nat → Option (Vertex V)} {n : Nat} {L : Nat → Prop} (h : ∀ id, (g' id).map core = (g id).map core) (hc : CutOff g n L) :
    CutOff g' n L := by
  intro id hid hL v hv links hl
  rcases agree_cases (h id) with ⟨e1, _⟩ | ⟨v', w, e1, e2, _, _, e3, _, _⟩
  · rw [e1] at hv; cases hv
  · rw [e1] at hv; cases hv
    rw [e3] at hl
    exact hc id hid hL w e2 links hl

/-- the state of affairs that every later step keeps -/
structure Kept (P : Params V D) (r : Bool) (vs0 : List V) (L : Nat → Prop) (s : Index V) (vs : List V) : Prop where
  hist : Hist P s vs
  small : ∀ x, L x → x < vs.length
  same : ∀ x, L x → vs[x]? = vs0[x]?
  entry : ¬ L s.entry
  kvEntry : ∀ e, s.kvEntry = some e → ¬ L e
  cut : CutOff s.get vs.length L
  kvSmall : r = true → ∀ x, L x → x < s.kvCount.getD 0
  kvCut : r = true → CutOff s.reopen.get (s.kvCount.getD 0) L

theorem later_kept {P : Params V D} (hP : P.Ok) {r : Bool} {s0 : Index V} {vs0 : List V} {L : Nat → Prop} (h0 : ¬ L 0) (hne : ∃ x, L x)
    (h : Kept P r vs0 L s0 vs0) {s : Index V} {vs : List V} (hl : Later P r s0 vs0 s vs) : Kept P r vs0 L s vs := by
  have hnil : ∀ {s : Index V} {vs : List V}, Kept P r vs0 L s vs → vs ≠ [] := by
    rintro s vs hk rfl
    obtain ⟨x, hx⟩ := hne
    have := hk.small x hx
    simp at this
  induction hl with
  | here => exact h
  | @add s s' vs vo sched vec level _ ha ih =>
    have hi := hist_inv hP ih.hist
    have hx : ¬ L vs.length := fun hL => Nat.lt_irrefl _ (ih.small _ hL)
    obtain ⟨a1, a2⟩ := add_avoids hP hi (hnil ih) hx ih.entry ih.cut ha
    have hk := add_keeps (P := P) (vo := vo) (sched := sched) (x := vs.length) (vec := vec) (level := level) hi.ids
    rw [ha] at hk
    have hkv : s'.kv = s.kv := hk.kv
    have hkc : s'.kvCount = s.kvCount := hk.kvCount
    have hke : s'.kvEntry = s.kvEntry := hk.kvEntry
    refine ⟨.add vo sched vec level ih.hist ha, fun x hL => ?_, fun x hL => ?_, a2, by rw [hke]; exact ih.kvEntry, ?_, by rw [hkc]; exact ih.kvSmall, ?_⟩
    · have := ih.small x hL; simp; omega
    · rw [List.getElem?_append_left (ih.small x hL)]; exact ih.same x hL
    · have : (vs ++ [vec]).length = vs.length + 1 := by simp
      rw [this]; exact a1
    · rw [hkc]
      intro hr
      exact cutOff_congr (fun id => by rw [reopen_get, reopen_get, hkv]) (ih.kvCut hr)
  | @refused s s' vs e vo sched vec level _ hlen ha ih =>
    have hi := hist_inv hP ih.hist
    have hk := add_keeps (P := P) (vo := vo) (sched := sched) (x := vs.length) (vec := vec) (level := level) hi.ids
    rw [ha] at hk
    have hkv : s'.kv = s.kv := hk.kv
    have hkc : s'.kvCount = s.kvCount := hk.kvCount
    have hke : s'.kvEntry = s.kvEntry := hk.kvEntry
    have hboth : s'.entry = s.entry ∧ CutOff s'.get vs.length L := by
      rcases add_wrong_length hP hi (hnil ih) hlen vo sched level with h1 | ⟨_, h1⟩ | h1
      · rw [h1] at ha; cases ha; exact ⟨rfl, ih.cut⟩
      · rw [h1] at ha; cases ha; exact ⟨rfl, ih.cut⟩
      · rw [h1] at ha; cases ha
        refine ⟨rfl, fun id hid hL v hg => ?_⟩
        rw [get_put, if_neg (show id ≠ (newNode vs.length (P.norm vec) level).id from Nat.ne_of_lt hid)] at hg
        exact ih.cut id hid hL v hg
    refine ⟨.refused vo sched vec level ih.hist (hnil ih) hlen ha, ih.small, ih.same, by rw [hboth.1]; exact ih.entry, by rw [hke]; exact ih.kvEntry, hboth.2,
      by rw [hkc]; exact ih.kvSmall, ?_⟩
    rw [hkc]
    intro hr
    exact cutOff_congr (fun id => by rw [reopen_get, reopen_get, hkv]) (ih.kvCut hr)
  | @flush s s' vs order _ ho hf ih =>
    have hi := hist_inv hP ih.hist
    have hist' : Hist P s' vs := .flush order ih.hist (hnil ih) ho hf
    obtain ⟨s1, hw, rfl⟩ := flush_ok hi.ids hf
    refine ⟨hist', ih.small, ih.same, ?_, ?_, ?_, fun _ => ih.small, fun _ => ?_⟩
    · show ¬ L s1.entry
      rw [hw.entry]; exact ih.entry
    · intro e he
      cases he; exact ih.entry
    · exact cutOff_congr (g := s.get) (g' := s1.get) (fun id => hw.get (dirty_cached hi.ids order) id) ih.cut
    · exact cutOff_congr (g := s.get) (fun id => by
        rw [reopen_get, map_core_core]; exact wroteAll hi.ids hi.synced ho hw id) ih.cut
  | @load s vs _ ih =>
    refine ⟨.load ih.hist, ih.small, ih.same, ?_, ih.kvEntry, ih.cut, ih.kvSmall, ih.kvCut⟩
    show ¬ L (s.kvEntry.getD 0)
    cases hk : s.kvEntry with
    | none => exact h0
    | some e => exact ih.kvEntry e hk
  | @unread s vs _ ih => exact ⟨.unread ih.hist, ih.small, ih.same, h0, ih.kvEntry, ih.cut, ih.kvSmall, ih.kvCut⟩
  | @restart s vs hr _ ih =>
    have hi := hist_inv hP ih.hist
    have hlen : (vs.take (s.kvCount.getD 0)).length = s.kvCount.getD 0 := by rw [List.length_take]; have := hi.le; omega
    refine ⟨.restart ih.hist, fun x hL => ?_, fun x hL => ?_, h0, ih.kvEntry, ?_, ih.kvSmall, ih.kvCut⟩
    · rw [hlen]; exact ih.kvSmall hr x hL
    · rw [List.getElem?_take_of_lt (ih.kvSmall hr x hL)]; exact ih.same x hL
    · rw [hlen]; exact ih.kvCut hr

/-- A set `L` of stored vectors that nothing outside links to, and in which no search starts, is never found again: after every later sequence of steps its
vectors are still stored under their numbers, and no search returns one of them.  If restarts can happen (`r`), the same has to hold for the stored links. -/
theorem lost_stays_lost (P : Params V D) (hP : P.Ok) (s0 : Index V) (vs0 : List V) (h : Hist P s0 vs0) (r : Bool) (L : Nat → Prop)
    (hL : ∀ x, L x → x < vs0.length) (h0 : ¬ L 0) (he : ¬ L s0.entry) (hke : ∀ e, s0.kvEntry = some e → ¬ L e) (hc : CutOff s0.get vs0.length L)
    (hst : r = true → (∀ x, L x → x < s0.kvCount.getD 0) ∧ CutOff s0.reopen.get (s0.kvCount.getD 0) L)
    (s : Index V) (vs : List V) (hl : Later P r s0 vs0 s vs) (x : Nat) (hx : L x) :
    vs[x]? = vs0[x]? ∧ (∃ u, vs[x]? = some u) ∧
    ∀ (σ : Graph.Scheds D) (q : V) (max : D) (ef : Int) (allow : Option (Nat → Bool)) (ids : List Nat) (ds : List D),
      (s.graph P).knnMaxDist σ q max ef allow = .ok (ids, ds) → x ∉ ids := by
  have hk := later_kept hP h0 ⟨x, hx⟩ ⟨h, hL, fun _ _ => rfl, he, hke, hc, fun hr => (hst hr).1, fun hr => (hst hr).2⟩ hl
  have hlt := hk.small x hx
  refine ⟨hk.same x hx, ⟨_, List.getElem?_eq_getElem hlt⟩, fun σ q max ef allow ids ds hs hm => ?_⟩
  have hn : vs ≠ [] := by rintro rfl; simp at hlt
  exact cut_off_never_found hP hk.hist hn hk.entry hk.cut σ q max ef allow ids ds hs x hm hx

/-- the links of all layers lead from `a` to `b` -/
inductive Way (get : Nat → Option (Vertex V)) (a : Nat) : Nat → Prop where
  | here : Way get a a
  | link {b c : Nat} {v : Vertex V} {links : List Nat} : Way get a b → get b = some v → links ∈ v.conns → c ∈ links → Way get a c

/-- One vector, in a running process: if the links lead to it neither from the entry point nor from the stored entry point nor from number 0, no later search
finds it. -/
theorem unreachable_stays_lost (P : Params V D) (hP : P.Ok) (s0 : Index V) (vs0 : List V) (h : Hist P s0 vs0) (x : Nat) (hx : x < vs0.length)
    (hw : ∀ a, a = 0 ∨ a = s0.entry ∨ s0.kvEntry = some a → ¬ Way s0.get a x)
    (s : Index V) (vs : List V) (hl : Later P false s0 vs0 s vs) :
    vs[x]? = vs0[x]? ∧ (∃ u, vs[x]? = some u) ∧
    ∀ (σ : Graph.Scheds D) (q : V) (max : D) (ef : Int) (allow : Option (Nat → Bool)) (ids : List Nat) (ds : List D),
      (s.graph P).knnMaxDist σ q max ef allow = .ok (ids, ds) → x ∉ ids := by
  let L : Nat → Prop := fun y => y < vs0.length ∧ ∀ a, a = 0 ∨ a = s0.entry ∨ s0.kvEntry = some a → ¬ Way s0.get a y
  refine lost_stays_lost P hP s0 vs0 h false L (fun y hy => hy.1) (fun hy => hy.2 0 (.inl rfl) .here) (fun hy => hy.2 _ (.inr (.inl rfl)) .here)
    (fun e he hy => hy.2 e (.inr (.inr he)) .here) ?_ (fun hr => by cases hr) s vs hl x ⟨hx, hw⟩
  intro id hid hL v hg links hls b hb hy
  refine hL ⟨hid, fun a ha hway => hy.2 a ha (.link hway hg hls hb)⟩

/-- The same with restarts, from the moment a flush has succeeded. -/
theorem unreachable_after_flush_stays_lost (P : Params V D) (hP : P.Ok) (s0 s1 : Index V) (vs0 : List V) (h : Hist P s0 vs0) (order : List Nat)
    (ho : ∀ id ∈ s0.cache.keys, id ∈ order) (hf : flush P s0 order vs0.length = (s1, none)) (x : Nat) (hx : x < vs0.length)
    (hw : ∀ a, a = 0 ∨ a = s0.entry → ¬ Way s0.get a x)
    (s : Index V) (vs : List V) (hl : Later P true s1 vs0 s vs) :
    vs[x]? = vs0[x]? ∧ (∃ u, vs[x]? = some u) ∧
    ∀ (σ : Graph.Scheds D) (q : V) (max : D) (ef : Int) (allow : Option (Nat → Bool)) (ids : List Nat) (ds : List D),
      (s.graph P).knnMaxDist σ q max ef allow = .ok (ids, ds) → x ∉ ids := by
  let L : Nat → Prop := fun y => y < vs0.length ∧ ∀ a, a = 0 ∨ a = s0.entry → ¬ Way s0.get a y
  have hi := hist_inv hP h
  have hn : vs0 ≠ [] := by rintro rfl; simp at hx
  have hist' : Hist P s1 vs0 := .flush order h hn ho hf
  obtain ⟨s2, hwr, rfl⟩ := flush_ok hi.ids hf
  have hcut : CutOff s0.get vs0.length L := by
    intro id hid hL v hg links hls b hb hy
    exact hL ⟨hid, fun a ha hway => hy.2 a ha (.link hway hg hls hb)⟩
  have hent : ¬ L s0.entry := fun hy => hy.2 _ (.inr rfl) .here
  refine lost_stays_lost P hP _ vs0 hist' true L (fun y hy => hy.1) (fun hy => hy.2 0 (.inl rfl) .here) ?_ ?_ ?_ (fun _ => ⟨fun y hy => hy.1, ?_⟩) s vs hl x ⟨hx, hw⟩
  · show ¬ L s2.entry
    rw [hwr.entry]; exact hent
  · intro e he
    cases he; exact hent
  · exact cutOff_congr (g := s0.get) (g' := s2.get) (fun id => hwr.get (dirty_cached hi.ids order) id) hcut
  · exact cutOff_congr (g := s0.get) (fun id => by
      rw [reopen_get, map_core_core]; exact wroteAll hi.ids hi.synced ho hwr id) hcut

/-! ## Cases -/
open C100 (copied adds adds_hist hidden hidden_unlinked)

/-- C100's collection: four copies of one vector hide three others.  The three are never found again, and with a flush they are not found after restarts either. -/
example : ∃ s s1, Hist Ex.P s copied ∧ flush Ex.P s (List.range 7) 7 = (s1, none) ∧
    (∀ s' vs', Later Ex.P false s copied s' vs' → ∀ σ q max ef allow ids ds, (s'.graph Ex.P).knnMaxDist σ q max ef allow = .ok (ids, ds) →
      4 ∉ ids ∧ 5 ∉ ids ∧ 6 ∉ ids) ∧
    (∀ s' vs', Later Ex.P true s1 copied s' vs' → vs'[4]? = some [9, 0] ∧ ∀ σ q max ef allow ids ds, (s'.graph Ex.P).knnMaxDist σ q max ef allow = .ok (ids, ds) →
      4 ∉ ids) := by
  have hrun : ∃ s, adds Ex.P copied init 0 copied = some s ∧ hidden s = true ∧ s.kvEntry = none ∧ s.cache.keys = List.range 7 ∧ s.entry = 0 ∧
      (flush Ex.P s (List.range 7) 7).2 = none := by
    have h : (adds Ex.P copied init 0 copied).any (fun s => hidden s && decide (s.kvEntry = none) && decide (s.cache.keys = List.range 7) && decide (s.entry = 0) &&
        (flush Ex.P s (List.range 7) 7).2.isNone) = true := by decide +kernel
    cases hs : adds Ex.P copied init 0 copied with
    | none => rw [hs] at h; cases h
    | some s =>
      rw [hs] at h
      simp only [Option.any_some, Bool.and_eq_true, decide_eq_true_eq, Option.isNone_iff_eq_none] at h
      exact ⟨s, rfl, h.1.1.1.1, h.1.1.1.2, h.1.1.2, h.1.2, h.2⟩
  obtain ⟨s, hs, hh, hke, hkeys, hent, hf⟩ := hrun
  have hist : Hist Ex.P s copied := adds_hist Ex.P copied [] copied init s .init hs
  have hno : ∀ x, x = 4 ∨ x = 5 ∨ x = 6 → ∀ a, a = 0 ∨ a = s.entry ∨ s.kvEntry = some a → ¬ Way s.get a x := by
    intro x hx a ha hw
    have ha0 : a = 0 := by
      rcases ha with h | h | h
      · exact h
      · rw [h, hent]
      · rw [hke] at h; cases h
    cases hw with
    | here => omega
    | link _ hg hl hb => exact (hidden_unlinked hh hx).2 _ _ hg _ hl hb
  refine ⟨s, (flush Ex.P s (List.range 7) 7).1, hist, Prod.ext rfl hf, fun s' vs' hl σ q max ef allow ids ds hk => ⟨?_, ?_, ?_⟩, fun s' vs' hl => ?_⟩
  · exact (unreachable_stays_lost Ex.P Ex.P_ok s copied hist 4 (by decide) (hno 4 (by simp)) s' vs' hl).2.2 σ q max ef allow ids ds hk
  · exact (unreachable_stays_lost Ex.P Ex.P_ok s copied hist 5 (by decide) (hno 5 (by simp)) s' vs' hl).2.2 σ q max ef allow ids ds hk
  · exact (unreachable_stays_lost Ex.P Ex.P_ok s copied hist 6 (by decide) (hno 6 (by simp)) s' vs' hl).2.2 σ q max ef allow ids ds hk
  · have h := unreachable_after_flush_stays_lost Ex.P Ex.P_ok s _ copied hist (List.range 7) (fun id hid => by rwa [hkeys] at hid) (Prod.ext rfl hf) 4 (by decide)
      (fun a ha => hno 4 (by simp) a (by rcases ha with h | h <;> simp [h])) s' vs' hl
    exact ⟨h.1, h.2.2⟩

/-- two vectors that are flushed, then five that are not -/
def before : List (List Nat) := [[5, 0], [9, 0]]
def after : List (List Nat) := [[6, 0], [4, 0], [5, 0], [5, 0], [5, 0]]

/-- the state after these additions -/
def group : Option (Index (List Nat)) :=
  match adds Ex.P (before ++ after) init 0 before with
  | some s =>
    match flush Ex.P s [0, 1] 2 with
    | (s1, none) => adds Ex.P (before ++ after) s1 2 after
    | _ => none
  | none => none

/-- `lost_stays_lost` for a group: 1 and 2 link to each other, nothing else links to them, and they are not found. -/
example : group.map (fun s => ((List.range 7).map fun i => (s.get i).map Vertex.conns, s.entry, s.kvEntry)) =
      some ([some [[5, 4, 6]], some [[0, 2]], some [[1, 0]], some [[0, 4]], some [[3, 0, 5]], some [[4, 0, 6]], some [[5, 0]]], 0, some 0) ∧
    group.map (fun s => ((s.graph Ex.P).knnMaxDist (fun _ => Sched.id) [9, 0] 100 10 none).toOption.map fun p => (p.1.length, p.1.contains 1, p.1.contains 2)) = some (some (5, false, false)) := by
  decide +kernel
/-- Why the stored links matter: the flush wrote the link from 0 to 1, so after a restart — which loses the other five — 1 is found again. -/
example : group.map (fun s => ((List.range 7).map fun i => (s.reopen.get i).map Vertex.conns, s.kvCount)) =
      some ([some [[1]], some [[0]], none, none, none, none, none], some 2) ∧
    group.map (fun s => ((s.reopen.graph Ex.P).knnMaxDist (fun _ => Sched.id) [9, 0] 100 10 none).toOption.map Prod.fst) = some (some [1, 0]) := by
  decide +kernel
/-- `Later` is not empty: another addition, a flush, a restart and another addition; the three hidden vectors of C100 are not found after any of them. -/
example :
    let s := ((adds Ex.P copied init 0 copied).getD init)
    let s1 := (flush Ex.P s (List.range 7) 7).1
    let r2 := add Ex.P (fun _ _ _ id => (copied ++ [[8, 0]])[id]?) (fun _ => Sched.id) s1 7 [8, 0] 0
    let r3 := flush Ex.P r2.1 (List.range 8) 8
    let r4 := add Ex.P (fun _ _ _ id => (copied ++ [[8, 0], [3, 0]])[id]?) (fun _ => Sched.id) r3.1.reopen 8 [3, 0] 0
    r2.2 = none ∧ r3.2 = none ∧ r4.2 = none ∧
    ((r4.1.graph Ex.P).knnMaxDist (fun _ => Sched.id) [9, 0] 100 10 none).toOption.map (fun p => p.1.all fun i => i != 4 && i != 5 && i != 6) = some true := by
  decide +kernel

end Fave.C101
