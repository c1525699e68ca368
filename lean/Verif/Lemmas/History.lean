import Verif.Model.History
import Verif.Lemmas.Flush
/-!
# The invariant of all histories
-/
namespace Fave.Index
open Search Spec
variable {V D : Type} [Dist D]

/-- look-ups deliver the vectors `vs` -/
def Holds (P : Params V D) (get : Nat → Option (Vertex V)) (vs : List V) : Prop :=
  ∀ id u v, vs[id]? = some u → get id = some v → v.vec = P.norm u

structure Inv (P : Params V D) (s : Index V) (vs : List V) : Prop where
  ids : IdsOk s
  synced : Synced s
  tombs : s.tombs = []
  wf : WellFormed P.maxConn0 P.maxConn s.get vs.length
  entry : vs ≠ [] → s.entry < vs.length
  small : vs.length ≤ P.cacheSize
  le : s.kvCount.getD 0 ≤ vs.length
  kvwf : WellFormed P.maxConn0 P.maxConn s.reopen.get (s.kvCount.getD 0)
  kvEntry : ∀ e, s.kvEntry = some e → e < s.kvCount.getD 0
  unflushed : s.kvCount = none → s.kv = [] ∧ s.kvEntry = none
  pos : ∀ c, s.kvCount = some c → 0 < c
  started : s.once = false → vs.length = s.kvCount.getD 0
  zero : vs = [] → s.once = false
  holds : Holds P s.get vs
  kvHolds : Holds P s.reopen.get (vs.take (s.kvCount.getD 0))
  dim : ∃ d, d ≠ 0 ∧ ∀ u ∈ vs, P.metric.len u = d

theorem inv_init (P : Params V D) : Inv P (init : Index V) [] := by
  refine ⟨⟨?_, ?_⟩, ?_, rfl, ?_, ?_, Nat.zero_le _, Nat.le_refl _, ?_, ?_, ?_, ?_, ?_, ?_, ?_, ?_, ?_⟩
  · intro id v h; cases h
  · intro id v h; cases h
  · intro id v h; cases h
  · intro id h; simp at h
  · intro h; exact absurd rfl h
  · intro id h; simp [init] at h
  · intro e h; cases h
  · intro _; exact ⟨rfl, rfl⟩
  · intro c h; cases h
  · intro _; rfl
  · intro _; rfl
  · intro id u v h; simp at h
  · intro id u v h; simp at h
  · exact ⟨1, by omega, by simp⟩

theorem ne_nil_of_pos {vs : List V} (h : 0 < vs.length) : vs ≠ [] := List.ne_nil_of_length_pos h
theorem pos_of_ne_nil {vs : List V} (h : vs ≠ []) : 0 < vs.length := List.length_pos_iff.mpr h

/-- the store counts as empty exactly if nothing was ever flushed -/
theorem Inv.isEmpty {P : Params V D} {s : Index V} {vs : List V} (h : Inv P s vs) : s.isEmpty = true ↔ s.kvCount = none := by
  constructor
  · intro he
    simp only [Index.isEmpty, Bool.and_eq_true, Option.isNone_iff_eq_none] at he
    exact he.2
  · intro hc
    obtain ⟨h1, h2⟩ := h.unflushed hc
    simp [Index.isEmpty, h1, h2, hc]

/-- an addition takes the path for the first element exactly if there is none yet -/
theorem Inv.path {P : Params V D} {s : Index V} {vs : List V} (h : Inv P s vs) : (!s.once && s.isEmpty) = true ↔ vs = [] := by
  rw [Bool.and_eq_true, h.isEmpty]
  constructor
  · rintro ⟨h1, h2⟩
    have := h.started (by simpa using h1)
    rw [h2] at this; exact List.eq_nil_of_length_eq_zero this
  · intro hn
    refine ⟨by rw [h.zero hn]; rfl, ?_⟩
    cases hc : s.kvCount with
    | none => rfl
    | some c =>
      have h1 := h.pos c hc
      have h2 := h.le
      rw [hc, hn] at h2
      simp at h2; omega

theorem connectNew_no_dist {P : Params V D} {t : Index V} {v : Vertex V} {q : V} {x : Nat} (hget : t.get t.entry = some v)
    (hd : (t.graph P).distNodeVec t.entry q = none) (vo : VecOracle V) (sched : Graph.Scheds D) (level : Nat) :
    connectNew P vo sched t x q level = (t, some .error) := by
  have hpick : pickEntry P t q 4 [] t.entry = .error .error := by
    unfold pickEntry
    rw [hget]
    simp only
    rw [hd]
  unfold connectNew
  have hfb : findBest P t sched q level t.maxLayer t.entry = .ok t.entry ∨
      findBest P t sched q level t.maxLayer t.entry = .error .error := by
    cases t.maxLayer with
    | zero => left; rfl
    | succ m =>
      unfold findBest
      split
      · left; rfl
      · right; rw [hd]
  rcases hfb with hfb | hfb
  · rw [hfb]
    simp only
    unfold doLevels doAtLevel
    rw [hpick]
  · rw [hfb]

/-- A refused vector leaves everything as it was, except for an unlinked node under the unused number. -/
theorem add_wrong_length {P : Params V D} (hP : P.Ok) {s : Index V} {vs : List V} (h : Inv P s vs) (hn : vs ≠ []) {vec : V}
    (hl : ∀ u ∈ vs, P.metric.len u ≠ P.metric.len vec) (vo : VecOracle V) (sched : Graph.Scheds D) (level : Nat) :
    add P vo sched s vs.length vec level = (s, some .error) ∨
    (P.cacheSize ≤ vs.length ∧ add P vo sched s vs.length vec level = ({ s with once := true }, some .panic)) ∨
    add P vo sched s vs.length vec level =
      (({ s with once := true } : Index V).put (newNode vs.length (P.norm vec) level), some .error) := by
  unfold add
  split
  · exact .inl rfl
  · unfold insertNode
    rw [if_neg (fun hh => hn (h.path.mp hh))]
    simp only
    split
    · rename_i hsz; exact .inr (.inl ⟨hsz, rfl⟩)
    · right; right
      have hent := h.entry hn
      obtain ⟨v, hv, _⟩ := h.wf s.entry hent
      have hu : vs[s.entry]? = some vs[s.entry] := List.getElem?_eq_getElem hent
      have hvu := h.holds _ _ v hu hv
      have hlv := hl vs[s.entry] (List.getElem_mem hent)
      have hget : (({ s with once := true } : Index V).put (newNode vs.length (P.norm vec) level)).get s.entry = some v := by
        rw [get_put, if_neg (show s.entry ≠ (newNode vs.length (P.norm vec) level).id from Nat.ne_of_lt hent)]
        exact hv
      have hd : ((({ s with once := true } : Index V).put (newNode vs.length (P.norm vec) level)).graph P).distNodeVec s.entry (P.norm vec) = none := by
        unfold Graph.distNodeVec
        have hg : ((({ s with once := true } : Index V).put (newNode vs.length (P.norm vec) level)).graph P).get s.entry = some v := hget
        rw [hg]
        simp only
        split
        · rfl
        · split
          · rfl
          · exact hP.lens _ _ (by rw [hvu, hP.norm, hP.norm]; exact hlv)
      exact connectNew_no_dist hget hd vo sched level

theorem wf_put_above {P : Params V D} {s : Index V} {n : Nat} (hw : WellFormed P.maxConn0 P.maxConn s.get n) {v : Vertex V} (hv : v.id = n) :
    WellFormed P.maxConn0 P.maxConn (s.put v).get n := by
  have hget : ∀ b, b < n → (s.put v).get b = s.get b := by
    intro b hb
    rw [get_put, if_neg (by omega)]
  intro id hid
  obtain ⟨w, a, b, c, d⟩ := hw id hid
  refine ⟨w, by rw [hget id hid]; exact a, b, c, ?_⟩
  intro k links hk
  obtain ⟨d1, d2, d3, d4⟩ := d k links hk
  refine ⟨d1, d2, d3, ?_⟩
  intro b hb
  obtain ⟨e1, x, e2, e3⟩ := d4 b hb
  exact ⟨e1, x, by rw [hget b e1]; exact e2, e3⟩

theorem holds_put_above {P : Params V D} {s : Index V} {vs : List V} (h : Holds P s.get vs) {v : Vertex V} (hv : v.id = vs.length) :
    Holds P (s.put v).get vs := by
  intro id u w hu hw
  have hid : id < vs.length := (List.getElem?_eq_some_iff.mp hu).1
  rw [get_put, if_neg (by omega)] at hw
  exact h id u w hu hw

theorem inv_refused {P : Params V D} (hP : P.Ok) {s s' : Index V} {vs : List V} {e : Err} (h : Inv P s vs) (hn : vs ≠ []) {vec : V}
    (hl : ∀ u ∈ vs, P.metric.len u ≠ P.metric.len vec) {vo : VecOracle V} {sched : Graph.Scheds D} {level : Nat}
    (ha : add P vo sched s vs.length vec level = (s', some e)) : Inv P s' vs := by
  have honce : Inv P ({ s with once := true } : Index V) vs :=
    ⟨⟨h.ids.cache, h.ids.kv⟩, h.synced, h.tombs, h.wf, h.entry, h.small, h.le, h.kvwf, h.kvEntry, h.unflushed, h.pos,
      fun hh => Bool.noConfusion (show true = false from hh), fun hh => absurd hh hn, h.holds, h.kvHolds, h.dim⟩
  rcases add_wrong_length hP h hn hl vo sched level with h1 | ⟨_, h1⟩ | h1
  · rw [h1] at ha; cases ha; exact h
  · rw [h1] at ha; cases ha; exact honce
  · rw [h1] at ha; cases ha
    exact ⟨idsOk_put honce.ids _, synced_put honce.synced rfl, honce.tombs, wf_put_above honce.wf rfl, honce.entry, honce.small, honce.le,
      honce.kvwf, honce.kvEntry, honce.unflushed, honce.pos, honce.started, honce.zero, holds_put_above honce.holds rfl, honce.kvHolds, honce.dim⟩

theorem insertInitial_ok {P : Params V D} {s s' : Index V} {x : Nat} {q : V} (h : insertInitial P s x q = (s', none)) :
    s' = ({ s with entry := x, maxLayer := 0 } : Index V).put { id := x, level := 0, conns := [[]], maint := false, vec := q, committed := false } ∧
    x < P.cacheSize := by
  unfold insertInitial at h
  simp only [Prod.mk.injEq] at h
  obtain ⟨h1, h2⟩ := h
  refine ⟨h1.symm, ?_⟩
  by_cases hx : P.cacheSize ≤ x
  · rw [if_pos hx] at h2; cases h2
  · omega

/-- the two ways in which an addition under the next number can succeed -/
theorem add_ok_cases {P : Params V D} {s s' : Index V} {vs : List V} (h : Inv P s vs) {vo : VecOracle V} {sched : Graph.Scheds D} {vec : V} {level : Nat}
    (ha : add P vo sched s vs.length vec level = (s', none)) :
    P.metric.len vec ≠ 0 ∧ vs.length < P.cacheSize ∧
    ((vs = [] ∧ s' = ({ s with once := true, entry := 0, maxLayer := 0 } : Index V).put
        { id := 0, level := 0, conns := [[]], maint := false, vec := P.norm vec, committed := false }) ∨
     (vs ≠ [] ∧ connectNew P vo sched (({ s with once := true } : Index V).put (newNode vs.length (P.norm vec) level)) vs.length (P.norm vec) level = (s', none))) := by
  unfold add at ha
  split at ha
  · cases ha
  · rename_i hlen
    refine ⟨hlen, ?_⟩
    unfold insertNode at ha
    by_cases hn : vs = []
    · subst hn
      rw [if_pos (h.path.mpr rfl)] at ha
      obtain ⟨h1, h2⟩ := insertInitial_ok ha
      exact ⟨h2, .inl ⟨rfl, h1⟩⟩
    · rw [if_neg (fun hh => hn (h.path.mp hh))] at ha
      simp only at ha
      split at ha
      · cases ha
      · exact ⟨by omega, .inr ⟨hn, ha⟩⟩

/-- a successful addition of a further vector measured the distance to some stored vector -/
theorem connectNew_measured {P : Params V D} (hP : P.Ok) {vo : VecOracle V} {sched : Graph.Scheds D} {s s' : Index V} {n : Nat} {q : V} {level : Nat}
    (hw : WellFormed P.maxConn0 P.maxConn s.get n) (he : s.entry < n) (hn : n ≤ P.cacheSize)
    (h : connectNew P vo sched (s.put (newNode n q level)) n q level = (s', none)) :
    ∃ id v, id < n ∧ s.get id = some v ∧ ∃ d, P.metric.dist v.vec q = some d := by
  have hget : ∀ b, b < n → (s.put (newNode n q level)).get b = s.get b := by
    intro b hb; rw [get_put, if_neg (show b ≠ (newNode n q level).id from Nat.ne_of_lt hb)]
  obtain ⟨ep, s1, v, hf, hd, _⟩ := connectNew_ok h
  have hmo : ∀ (l id : Nat) v links b, id < n → (s.put (newNode n q level)).get id = some v → v.conns[l]? = some links → b ∈ links → b < n := by
    intro l id v links b hid hg hl hb
    rw [hget id hid] at hg
    obtain ⟨w, a1, _, _, a4⟩ := hw id hid
    have : w = v := by rw [a1] at hg; cases hg; rfl
    subst this
    exact ((a4 l links hl).2.2.2 b hb).1
  have hep : ep < n := findBest_lt (fun id hid => Nat.lt_of_lt_of_le hid hP.sizes) hmo hn _ he hf
  unfold doLevels at hd
  split at hd
  · cases hd
  · rename_i s2 ep2 hdl
    obtain ⟨e, _, _, _, hpk, _⟩ := doAtLevel_ok hdl
    obtain ⟨w, hwg, _⟩ := hw ep hep
    have hwg' : (s.put (newNode n q level)).get ep = some w := by rw [hget ep hep]; exact hwg
    obtain ⟨_, hdist⟩ := pickEntry_ok hwg' hpk
    refine ⟨ep, w, hep, hwg, e.dist, ?_⟩
    unfold Graph.distNodeVec at hdist
    have hg : ((s.put (newNode n q level)).graph P).get ep = some w := hwg'
    rw [hg] at hdist
    simp only at hdist
    split at hdist
    · cases hdist
    · split at hdist
      · cases hdist
      · exact hdist

theorem getElem?_append_one {vs : List V} {vec u : V} {id : Nat} (h : (vs ++ [vec])[id]? = some u) :
    (id < vs.length ∧ vs[id]? = some u) ∨ (id = vs.length ∧ u = vec) := by
  by_cases hid : id < vs.length
  · left; rw [List.getElem?_append_left hid] at h; exact ⟨hid, h⟩
  · right
    rw [List.getElem?_append_right (by omega)] at h
    have : id - vs.length = 0 := by
      have := (List.getElem?_eq_some_iff.mp h).1
      simp at this; omega
    rw [this] at h
    simp at h
    exact ⟨by omega, h.symm⟩

theorem inv_add {P : Params V D} (hP : P.Ok) {s s' : Index V} {vs : List V} (h : Inv P s vs) {vo : VecOracle V} {sched : Graph.Scheds D} {vec : V} {level : Nat}
    (ha : add P vo sched s vs.length vec level = (s', none)) : Inv P s' (vs ++ [vec]) := by
  have hlen : (vs ++ [vec]).length = vs.length + 1 := by simp
  obtain ⟨hvl, hsz, ⟨rfl, rfl⟩ | ⟨hn, hc⟩⟩ := add_ok_cases h ha
  · have hk : s.kvCount = none := by
      have := h.path.mpr rfl
      rw [Bool.and_eq_true, h.isEmpty] at this
      exact this.2
    have hg0 : (({ s with once := true, entry := 0, maxLayer := 0 } : Index V).put
        { id := 0, level := 0, conns := [[]], maint := false, vec := P.norm vec, committed := false }).get 0 =
        some { id := 0, level := 0, conns := [[]], maint := false, vec := P.norm vec, committed := false } :=
      (get_put _ _ _).trans (if_pos rfl)
    refine ⟨idsOk_put (s := { s with once := true, entry := 0, maxLayer := 0 }) ⟨h.ids.cache, h.ids.kv⟩ _,
      synced_put (s := { s with once := true, entry := 0, maxLayer := 0 }) h.synced rfl, h.tombs, ?_, fun _ => by simp [put],
      by simp at hsz ⊢; omega, by show s.kvCount.getD 0 ≤ _; rw [hk]; simp, h.kvwf, h.kvEntry,
      h.unflushed, h.pos, fun hh => Bool.noConfusion (show true = false from hh), fun hh => by simp at hh, ?_, ?_, ?_⟩
    · intro id hid
      have : id = 0 := by simp at hid; omega
      subst this
      refine ⟨_, hg0, rfl, rfl, ?_⟩
      intro k links hk
      have hk' : ([[]] : List (List Nat))[k]? = some links := hk
      have : links = [] := by
        cases k with
        | zero => simpa using hk'.symm
        | succ k => simp at hk'
      subst this
      exact ⟨List.nodup_nil, by simp, by simp, by simp⟩
    · intro id u v hu hv
      rcases getElem?_append_one hu with ⟨h1, _⟩ | ⟨h1, h2⟩
      · simp at h1
      · simp at h1
        subst h1; subst h2
        rw [hg0] at hv; cases hv; rfl
    · intro id u v hu
      have : ([] ++ [vec]).take (s.kvCount.getD 0) = [] := by rw [hk]; rfl
      have hu' : (([] ++ [vec]).take (s.kvCount.getD 0))[id]? = some u := hu
      rw [this] at hu'; simp at hu'
    · exact ⟨_, hvl, by simp⟩
  · have hids : IdsOk ({ s with once := true } : Index V) := ⟨h.ids.cache, h.ids.kv⟩
    obtain ⟨hw, he⟩ := connectNew_wf hP.conn (fun id hid => Nat.lt_of_lt_of_le hid hP.sizes) (s := { s with once := true }) h.wf hids h.tombs
      (h.entry hn) (by omega) hc
    obtain ⟨mid, mv, hm1, hm2, md, hm3⟩ := connectNew_measured hP (s := { s with once := true }) h.wf (h.entry hn) (by omega) hc
    obtain ⟨ep, s1, v, _, hd, hg, hgs, hcache, h1, h2, h3, h4, h5, _⟩ := connectNew_ok hc
    have hx := doLevels_ext P vo sched (P.norm vec) vs.length (Nat.min level (({ s with once := true } : Index V).put (newNode vs.length (P.norm vec) level)).maxLayer + 1)
      (({ s with once := true } : Index V).put (newNode vs.length (P.norm vec) level)) ep (idsOk_put hids _)
    rw [hd] at hx
    have hx : Ext vs.length (({ s with once := true } : Index V).put (newNode vs.length (P.norm vec) level)) s1 := hx
    have hi1 := hx.ids (idsOk_put hids _)
    have hgn : (({ s with once := true } : Index V).put (newNode vs.length (P.norm vec) level)).get vs.length = some (newNode vs.length (P.norm vec) level) :=
      (get_put _ _ _).trans (if_pos rfl)
    have hsy := hx.sync (synced_put (s := { s with once := true }) h.synced rfl)
      (by intro w hw; rw [hgn] at hw; cases hw; rfl)
    have hvid : v.id = vs.length := hi1.get hg
    have hvc : v.committed = false := hsy.2 v hg
    have hvv : v.vec = P.norm vec := by
      obtain ⟨v', a, b⟩ := hx.self (idsOk_put hids _) _ hgn
      rw [hg] at a; cases a; exact b
    have hkv : s'.kv = s.kv := h1.trans hx.same.kv
    have hkc : s'.kvCount = s.kvCount := h3.trans hx.same.kvCount
    have hke : s'.kvEntry = s.kvEntry := h2.trans hx.same.kvEntry
    have hreo : ∀ id, s'.reopen.get id = s.reopen.get id := by intro id; rw [reopen_get, reopen_get, hkv]
    refine ⟨⟨?_, ?_⟩, ?_, h4.trans (hx.same.tombs.trans h.tombs), by rw [hlen]; exact hw, fun _ => by rw [hlen]; exact he, by omega, ?_, ?_, ?_, ?_, ?_, ?_, ?_, ?_, ?_, ?_⟩
    · intro id w hw
      rw [hcache] at hw
      exact (idsOk_put hi1 _).cache id w hw
    · rw [hkv]; exact h.ids.kv
    · intro id w hw hwc
      rw [hcache] at hw
      rw [hkv]
      have := synced_put (v := { v with maint := false }) hsy.1 hvc id w hw hwc
      rw [← this]
      show _ = s1.kv.get id
      rw [hx.same.kv]; rfl
    · rw [hkc]; have := h.le; omega
    · rw [hkc]; exact wf_congr (fun id => by rw [hreo]) h.kvwf
    · rw [hke, hkc]; exact h.kvEntry
    · rw [hkc, hkv, hke]; exact h.unflushed
    · rw [hkc]; exact h.pos
    · intro hh
      have h5' : s'.once = true := h5.trans hx.same.once
      rw [h5'] at hh; cases hh
    · intro hh; simp at hh
    · intro id u w hu hw
      rw [hgs, get_put] at hw
      rcases getElem?_append_one hu with ⟨hid, hu⟩ | ⟨rfl, rfl⟩
      · rw [if_neg (show id ≠ v.id by omega)] at hw
        obtain ⟨w0, hw0, _⟩ := h.wf id hid
        have hw0' : (({ s with once := true } : Index V).put (newNode vs.length (P.norm vec) level)).get id = some w0 := by
          rw [get_put, if_neg (show id ≠ (newNode vs.length (P.norm vec) level).id from Nat.ne_of_lt hid)]; exact hw0
        obtain ⟨w', a, _, b, _⟩ := hx.old (idsOk_put hids _) id w0 (Nat.ne_of_lt hid) hw0'
        rw [hw] at a; cases a
        rw [b]; exact h.holds id u w0 hu hw0
      · rw [if_pos hvid.symm] at hw
        cases hw; exact hvv
    · intro id u w hu hw
      rw [hreo] at hw
      refine h.kvHolds id u w ?_ hw
      rw [hkc, List.take_append_of_le_length h.le] at hu
      exact hu
    · obtain ⟨d, hd0, hd1⟩ := h.dim
      refine ⟨d, hd0, ?_⟩
      intro u hu
      rcases List.mem_append.mp hu with hu | hu
      · exact hd1 u hu
      · simp at hu; subst hu
        have hmu : vs[mid]? = some vs[mid] := List.getElem?_eq_getElem hm1
        have := h.holds mid _ mv hmu hm2
        by_cases hle : P.metric.len mv.vec = P.metric.len (P.norm u)
        · rw [this, hP.norm, hP.norm] at hle
          rw [← hle]; exact hd1 _ (List.getElem_mem hm1)
        · rw [hP.lens _ _ hle] at hm3; cases hm3

theorem holds_congr {P : Params V D} {g g' : Nat → Option (Vertex V)} {vs : List V} (h : ∀ id, (g' id).map core = (g id).map core)
    (hh : Holds P g vs) : Holds P g' vs := by
  intro id u v hu hv
  rcases agree_cases (h id) with ⟨h1, _⟩ | ⟨v', w, h1, h2, _, _, _, _, e⟩
  · rw [hv] at h1; cases h1
  · rw [hv] at h1; cases h1
    rw [e]; exact hh id u w hu h2

theorem inv_flush {P : Params V D} {s s' : Index V} {vs : List V} (h : Inv P s vs) (hn : vs ≠ []) {order : List Nat}
    (ho : ∀ id ∈ s.cache.keys, id ∈ order) (hf : flush P s order vs.length = (s', none)) : Inv P s' vs := by
  obtain ⟨s1, hw, rfl⟩ := flush_ok h.ids hf
  have hd := dirty_cached h.ids order
  have hi := hw.ids h.ids
  have hall : ∀ id, ((s1.kv.get id).map core).map core = (s.get id).map core := by
    intro id
    rw [map_core_core]
    exact wroteAll h.ids h.synced ho hw id
  refine ⟨⟨hi.cache, hi.kv⟩, hw.synced h.synced, hw.tombs.trans h.tombs, ?_, ?_, h.small, ?_, ?_, ?_, ?_, ?_, ?_, ?_, ?_, ?_, h.dim⟩
  · exact wf_congr (g' := s1.get) (fun id => hw.get hd id) h.wf
  · intro hn; show s1.entry < _; rw [hw.entry]; exact h.entry hn
  · exact Nat.le_refl _
  · exact wf_congr (g := s.get) hall h.wf
  · intro e he
    have : s.entry = e := by simpa using he
    subst this; exact h.entry hn
  · intro hh; cases hh
  · intro c hc
    have : vs.length = c := by simpa using hc
    have := pos_of_ne_nil hn
    omega
  · intro _; rfl
  · intro hh; exact absurd hh hn
  · exact holds_congr (g' := s1.get) (fun id => hw.get hd id) h.holds
  · have : vs.take ((some vs.length).getD 0) = vs := by simp
    show Holds P _ (vs.take ((some vs.length).getD 0))
    rw [this]
    exact holds_congr (g := s.get) hall h.holds

theorem inv_load {P : Params V D} {s : Index V} {vs : List V} (h : Inv P s vs) : Inv P s.loadEntry vs := by
  refine ⟨⟨h.ids.cache, h.ids.kv⟩, h.synced, h.tombs, h.wf, ?_, h.small, h.le, h.kvwf, h.kvEntry, h.unflushed, h.pos, h.started, h.zero,
    h.holds, h.kvHolds, h.dim⟩
  intro hn
  show s.kvEntry.getD 0 < vs.length
  cases he : s.kvEntry with
  | none => exact pos_of_ne_nil hn
  | some e => have := h.kvEntry e he; have := h.le; simp; omega

theorem inv_unread {P : Params V D} {s : Index V} {vs : List V} (h : Inv P s vs) : Inv P { s with entry := 0 } vs :=
  ⟨⟨h.ids.cache, h.ids.kv⟩, h.synced, h.tombs, h.wf, fun hn => pos_of_ne_nil hn, h.small, h.le, h.kvwf, h.kvEntry, h.unflushed, h.pos,
    h.started, h.zero, h.holds, h.kvHolds, h.dim⟩

theorem inv_restart {P : Params V D} {s : Index V} {vs : List V} (h : Inv P s vs) : Inv P s.reopen (vs.take (s.kvCount.getD 0)) := by
  have hlen : (vs.take (s.kvCount.getD 0)).length = s.kvCount.getD 0 := by rw [List.length_take]; have := h.le; omega
  obtain ⟨d, hd0, hd1⟩ := h.dim
  refine ⟨⟨?_, h.ids.kv⟩, ?_, rfl, by rw [hlen]; exact h.kvwf, fun hn => pos_of_ne_nil hn, by rw [hlen]; exact Nat.le_trans h.le h.small,
    by rw [hlen]; exact Nat.le_refl _, h.kvwf, h.kvEntry, h.unflushed, h.pos, fun _ => hlen, fun _ => rfl, h.kvHolds, ?_,
    ⟨d, hd0, fun u hu => hd1 u (List.mem_of_mem_take hu)⟩⟩
  · intro id v hv; cases hv
  · intro id v hv; cases hv
  · show Holds P s.reopen.get ((vs.take (s.kvCount.getD 0)).take (s.kvCount.getD 0))
    rw [List.take_take, Nat.min_self]
    exact h.kvHolds

/-- every history satisfies the invariant -/
theorem hist_inv {P : Params V D} (hP : P.Ok) {s : Index V} {vs : List V} (h : Hist P s vs) : Inv P s vs := by
  induction h with
  | init => exact inv_init P
  | add vo sched vec level _ ha ih => exact inv_add hP ih ha
  | refused vo sched vec level _ hn hl ha ih => exact inv_refused hP ih hn hl ha
  | flush order _ hn ho hf ih => exact inv_flush ih hn ho hf
  | load _ ih => exact inv_load ih
  | unread _ ih => exact inv_unread ih
  | restart _ ih => exact inv_restart ih

/-! ## arbitrary sequences of operations -/

/-- what an addition under number `x` leaves alone, whatever happens -/
structure Keeps (x : Nat) (s s' : Index V) : Prop where
  kv : s'.kv = s.kv
  kvEntry : s'.kvEntry = s.kvEntry
  kvCount : s'.kvCount = s.kvCount
  tombs : s'.tombs = s.tombs
  ids : IdsOk s'
  synced : Synced s → Synced s'
  old : ∀ id v, id ≠ x → s.get id = some v → ∃ v', s'.get id = some v' ∧ v'.id = v.id ∧ v'.vec = v.vec ∧ v'.maint = v.maint ∧ v.level ≤ v'.level
  none : ∀ id, id ≠ x → s.get id = none → s'.get id = none

theorem Ext.keeps {x : Nat} {s s' : Index V} (h : Ext x s s') (hi : IdsOk s) (hd : Dirty x s) : Keeps x s s' :=
  ⟨h.same.kv, h.same.kvEntry, h.same.kvCount, h.same.tombs, h.ids hi, fun hs => (h.sync hs hd).1, h.old hi, h.none hi⟩

theorem Keeps.trans {x : Nat} {a b c : Index V} (h : Keeps x a b) (h' : Keeps x b c) : Keeps x a c := by
  refine ⟨h'.kv.trans h.kv, h'.kvEntry.trans h.kvEntry, h'.kvCount.trans h.kvCount, h'.tombs.trans h.tombs, h'.ids, fun hs => h'.synced (h.synced hs), ?_, ?_⟩
  · intro id v hx hg
    obtain ⟨v1, g1, a1, b1, m1, c1⟩ := h.old id v hx hg
    obtain ⟨v2, g2, a2, b2, m2, c2⟩ := h'.old id v1 hx g1
    exact ⟨v2, g2, a2.trans a1, b2.trans b1, m2.trans m1, Nat.le_trans c1 c2⟩
  · intro id hx hg; exact h'.none id hx (h.none id hx hg)

theorem keeps_put {x : Nat} {s : Index V} (hi : IdsOk s) {v : Vertex V} (hv : v.id = x) (hc : v.committed = false) : Keeps x s (s.put v) := by
  refine ⟨rfl, rfl, rfl, rfl, idsOk_put hi v, fun h => synced_put h hc, ?_, ?_⟩
  · intro id w hx hg
    exact ⟨w, by rw [get_put, if_neg (hv ▸ hx)]; exact hg, rfl, rfl, rfl, Nat.le_refl _⟩
  · intro id hx hg; rw [get_put, if_neg (hv ▸ hx)]; exact hg

theorem keeps_flags {x : Nat} {s s' : Index V} (hi : IdsOk s) (h1 : s'.cache = s.cache) (h2 : s'.kv = s.kv) (h3 : s'.kvEntry = s.kvEntry)
    (h4 : s'.kvCount = s.kvCount) (h5 : s'.tombs = s.tombs) : Keeps x s s' := by
  have hg : ∀ id, s'.get id = s.get id := by intro id; unfold get; rw [h1, h2]
  refine ⟨h2, h3, h4, h5, ⟨by rw [h1]; exact hi.cache, by rw [h2]; exact hi.kv⟩, ?_, ?_, ?_⟩
  · intro hs id v; rw [h1, h2]; exact hs id v
  · intro id v _ h; exact ⟨v, by rw [hg]; exact h, rfl, rfl, rfl, Nat.le_refl _⟩
  · intro id _ h; rw [hg]; exact h

theorem connectNew_keeps {P : Params V D} {vo : VecOracle V} {sched : Graph.Scheds D} {s : Index V} {x : Nat} {q : V} {level : Nat}
    (hi : IdsOk s) (hd : Dirty x s) : Keeps x s (connectNew P vo sched s x q level).1 := by
  have hr : Keeps x s s := (Ext.refl x s).keeps hi hd
  unfold connectNew
  split
  · exact hr
  · rename_i ep _
    have hx := doLevels_ext P vo sched q x (Nat.min level s.maxLayer + 1) s ep hi
    split
    · rename_i he; rw [he] at hx; exact hx.keeps hi hd
    · rename_i s1 he
      rw [he] at hx
      have hx : Ext x s s1 := hx
      split
      · exact hx.keeps hi hd
      · rename_i v hv
        have hk := hx.keeps hi hd
        have hi1 := hx.ids hi
        have e2 : Ext x s1 (s1.put { v with maint := false }) := by
          refine ⟨same_put _ _, fun h => idsOk_put h _, ?_, ?_, ?_, fun a b => ⟨synced_put a (b v hv), dirty_put b (b v hv)⟩⟩
          · intro _ id w hx hg
            exact ⟨w, by rw [get_put, if_neg (show id ≠ v.id by rw [hi1.get hv]; exact hx)]; exact hg, rfl, rfl, rfl, Nat.le_refl _⟩
          · intro _ id hx hg
            rw [get_put, if_neg (show id ≠ v.id by rw [hi1.get hv]; exact hx)]; exact hg
          · intro _ w hw
            refine ⟨{ v with maint := false }, ?_, ?_⟩
            · rw [get_put, if_pos (show x = v.id from (hi1.get hv).symm)]
            · rw [hv] at hw; cases hw; rfl
        have hk2 := (hx.trans e2).keeps hi hd
        simp only
        split
        · exact hk2.trans (keeps_flags hk2.ids rfl rfl rfl rfl rfl)
        · exact hk2

/-- whatever the outcome of an addition, the other nodes keep number, vector and at least their level -/
theorem add_keeps {P : Params V D} {vo : VecOracle V} {sched : Graph.Scheds D} {s : Index V} {x : Nat} {vec : V} {level : Nat}
    (hi : IdsOk s) : Keeps x s (add P vo sched s x vec level).1 := by
  have hr : Keeps x s s := keeps_flags hi rfl rfl rfl rfl rfl
  unfold add
  split
  · exact hr
  · unfold insertNode
    split
    · unfold insertInitial
      exact (keeps_flags (s' := ({ s with once := true, entry := x, maxLayer := 0 } : Index V)) hi rfl rfl rfl rfl rfl).trans
        (keeps_put (x := x) (s := { s with once := true, entry := x, maxLayer := 0 })
          (v := { id := x, level := 0, conns := [[]], maint := false, vec := P.norm vec, committed := false }) ⟨hi.cache, hi.kv⟩ rfl rfl)
    · have h1 : Keeps x s ({ s with once := true } : Index V) := keeps_flags hi rfl rfl rfl rfl rfl
      simp only
      split
      · exact h1
      · have h2 := h1.trans (keeps_put (x := x) (v := newNode x (P.norm vec) level) h1.ids rfl rfl)
        refine h2.trans (connectNew_keeps h2.ids ?_)
        intro w hw
        rw [get_put, if_pos (show x = (newNode x (P.norm vec) level).id from rfl)] at hw
        cases hw; rfl

theorem prefix_append_cases {α : Type} {l a b : List α} (h : l <+: a ++ b) : l <+: a ∨ ∃ t, l = a ++ t ∧ t <+: b := by
  obtain ⟨r, hr⟩ := h
  rcases List.append_eq_append_iff.mp hr with ⟨t, h1, h2⟩ | ⟨t, h1, h2⟩
  · exact .inl ⟨t, h1.symm⟩
  · exact .inr ⟨t, h1, ⟨r, h2.symm⟩⟩

theorem node_prefix {s : Index V} {order : List Nat} {n : Nat} {ws : List (Write V)} (h : ws <+: s.flushWrites order n) :
    (∃ vs, vs <+: s.dirty order ∧ ws = vs.map .node) ∨ ws = (s.dirty order).map .node ++ [.entry s.entry] ∨ ws = s.flushWrites order n := by
  unfold flushWrites at h ⊢
  rcases prefix_append_cases h with h1 | ⟨t, h1, h2⟩
  · obtain ⟨vs, hv, rfl⟩ := List.prefix_map_iff.mp h1
    exact .inl ⟨vs, hv, rfl⟩
  · rcases List.prefix_cons_iff.mp h2 with rfl | ⟨t', rfl, h3⟩
    · left; exact ⟨s.dirty order, List.prefix_rfl, by simpa using h1⟩
    · rcases List.prefix_cons_iff.mp h3 with rfl | ⟨t', rfl, h4⟩
      · right; left; exact h1
      · have : t' = [] := by simpa using h4
        subst this
        right; right; exact h1

/-- the storage after an interrupted flush -/
theorem crash_state {s : Index V} (hi : IdsOk s) {order : List Nat} {n : Nat} {ws : List (Write V)} (h : ws <+: s.flushWrites order n) :
    ∃ s1 vs, vs <+: s.dirty order ∧ WroteNodes s s1 vs ∧ ((ws.foldl applyWrite s = s1 ∧ ws.length = vs.length) ∨
      (vs = s.dirty order ∧ (ws.foldl applyWrite s = { s1 with kvEntry := some s.entry } ∨
        ws.foldl applyWrite s = { s1 with kvEntry := some s.entry, kvCount := some n }))) := by
  rcases node_prefix h with ⟨vs, hv, rfl⟩ | rfl | rfl
  · exact ⟨_, vs, hv, wroteNodes vs s (fun v hm => dirty_cached hi order v (hv.subset hm)), .inl ⟨rfl, by simp⟩⟩
  · refine ⟨_, _, List.prefix_rfl, wroteNodes (s.dirty order) s (dirty_cached hi order), .inr ⟨rfl, .inl ?_⟩⟩
    rw [List.foldl_append]; rfl
  · refine ⟨_, _, List.prefix_rfl, wroteNodes (s.dirty order) s (dirty_cached hi order), .inr ⟨rfl, .inr ?_⟩⟩
    unfold flushWrites
    rw [List.foldl_append]; rfl

theorem idsOk_crash {s : Index V} (hi : IdsOk s) {order : List Nat} {n : Nat} {ws : List (Write V)} (h : ws <+: s.flushWrites order n) :
    IdsOk (ws.foldl applyWrite s) ∧ (Synced s → Synced (ws.foldl applyWrite s)) := by
  obtain ⟨s1, vs, _, hw, ⟨h1, _⟩ | ⟨_, h1 | h1⟩⟩ := crash_state hi h
  · rw [h1]; exact ⟨hw.ids hi, hw.synced⟩
  · rw [h1]; have := hw.ids hi; exact ⟨⟨this.cache, this.kv⟩, hw.synced⟩
  · rw [h1]; have := hw.ids hi; exact ⟨⟨this.cache, this.kv⟩, hw.synced⟩

theorem any_inv {P : Params V D} {s : Index V} (h : Any P s) : IdsOk s ∧ Synced s := by
  induction h with
  | init => exact ⟨(inv_init P).ids, (inv_init P).synced⟩
  | add vo sched x vec level _ ih => exact ⟨(add_keeps ih.1).ids, (add_keeps ih.1).synced ih.2⟩
  | flush order n _ ih =>
    have := idsOk_crash ih.1 (flushUpToBad_prefix P (flushWrites _ order n)).1
    exact ⟨this.1, this.2 ih.2⟩
  | crash order n ws _ hp ih =>
    have := idsOk_crash ih.1 hp
    exact ⟨⟨fun id v hv => (by cases hv), this.1.kv⟩, fun id v hv => by cases hv⟩
  | cut order n ws _ hp ih =>
    have := idsOk_crash ih.1 hp
    exact ⟨this.1, this.2 ih.2⟩
  | load _ ih => exact ⟨⟨ih.1.cache, ih.1.kv⟩, ih.2⟩
  | unread _ ih => exact ⟨⟨ih.1.cache, ih.1.kv⟩, ih.2⟩
  | restart _ ih => exact ⟨⟨fun id v hv => (by cases hv), ih.1.kv⟩, fun id v hv => by cases hv⟩

theorem hist_any {P : Params V D} {s : Index V} {vs : List V} (h : Hist P s vs) : Any P s := by
  induction h with
  | init => exact .init
  | @add s s' vs vo sched vec level _ ha ih => have := Any.add vo sched vs.length vec level ih; rw [ha] at this; exact this
  | @refused s s' vs e vo sched vec level _ _ _ ha ih => have := Any.add vo sched vs.length vec level ih; rw [ha] at this; exact this
  | @flush s s' vs order _ _ _ hf ih => have := Any.flush order vs.length ih; rw [hf] at this; exact this
  | load _ ih => exact .load ih
  | unread _ ih => exact .unread ih
  | restart _ ih => exact .restart ih

end Fave.Index
