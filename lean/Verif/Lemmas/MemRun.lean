import Verif.Lemmas.MemLists
/-!
# Operations on link lists: memory and lists agree
-/
namespace Fave.Mem

theorem put_put (s : St) (i : Nat) (h h' : Heap) (v v' : Vert) : (s.put i h v).put i h' v' = s.put i h' v' := by
  unfold St.put
  simp only [St.mk.injEq, true_and, and_true]
  funext j
  split <;> rfl

theorem lists_put_put (t : Lists) (i a b : Nat) (x y : List (List Nat)) : (t.put i a x).put i b y = t.put i b y := by
  unfold Lists.put
  funext j
  split <;> rfl

/-- the vertex after the upgrade, if any — neighbor_connections.go:149-152 -/
def upgraded (v : Vert) (level : Nat) : Vert := if v.level < level then upgrade v level else v

theorem upgraded_sub (v : Vert) (level m : Nat) (b : Slice) (h : (upgraded v level).conns[m]? = some b) :
    b.arr = 0 ∧ b.len = 0 ∨ ∃ a, v.conns[m]? = some a ∧ a.arr = b.arr ∧ b.len ≤ a.len := by
  unfold upgraded at h
  split at h
  · simp only [upgrade] at h
    rw [List.getElem?_take] at h
    split at h
    · rw [List.getElem?_append] at h
      split at h
      · exact .inr ⟨b, h, rfl, Nat.le_refl _⟩
      · rw [List.getElem?_replicate] at h
        split at h
        · cases h; exact .inl ⟨rfl, rfl⟩
        · cases h
    · cases h
  · exact .inr ⟨b, h, rfl, Nat.le_refl _⟩

theorem upgraded_reads (h : Heap) (h0 : h.cells 0 = []) (v : Vert) (level : Nat) :
    (upgraded v level).conns.map h.read =
      if v.level < level then (v.conns.map h.read ++ List.replicate (level + 1) []).take (level + 1) else v.conns.map h.read := by
  unfold upgraded
  split
  · simp only [upgrade, List.map_take, List.map_append, List.map_replicate]
    congr 3
  · rfl

/-- the memory part of connecting, on the vertex after the upgrade -/
theorem connect_local (F : Floats) (h : Heap) (v : Vert) (level x max : Nat) (sel : List Nat → List Nat) (hf : Fits h (upgraded v level)) :
    match (upgraded v level).conns[level]? with
    | none => Mem.connect F h v level x max sel = none
    | some s => ∃ h' v', Mem.connect F h v level x max sel = some (h', v') ∧
        Local h (upgraded v level) level h' v' (if s.len < max then h.read s ++ [x] else sel (h.read s)) := by
  unfold Mem.connect
  rw [show (if v.level < level then upgrade v level else v) = upgraded v level from rfl]
  generalize upgraded v level = u at hf ⊢
  cases hs : u.conns[level]? with
  | none => simp only [hs]
  | some s =>
    simp only [hs]
    have hlt := (List.getElem?_eq_some_iff.mp hs).1
    split
    · obtain ⟨⟨h', v'⟩, he⟩ := appendConn_total F h u level x max hlt
      exact ⟨h', v', he, appendConn_local F h u level x max hf h' v' s hs he⟩
    · have hr : resetConn u level = some { u with conns := u.conns.set level ⟨s.arr, 0⟩ } := by
        unfold resetConn; rw [hs]
      rw [hr]
      simp only
      have l1 := resetConn_local h u level hf _ hr
      obtain ⟨h', v', he, hl⟩ := appendAll_local F level max (sel (h.read s)) h _ (l1.fits hf) (by simp only [List.length_set]; exact hlt)
      refine ⟨h', v', he, ?_⟩
      have l2 := hl ⟨s.arr, 0⟩ (getElem?_set_self' _ _ _ _ hs)
      have l3 := l1.trans hf l2
      have h0 : h.read ⟨s.arr, 0⟩ = [] := by simp [Heap.read]
      rw [h0, List.nil_append] at l3
      exact l3

theorem disjoint_walks {s : St} (hd : Disjoint s) (ws : List (Slice × List Nat)) : Disjoint { s with walks := ws } :=
  ⟨hd.zero, hd.pos, hd.fits, hd.unmade, hd.sep⟩

/-- one operation -/
theorem run_lists (F : Floats) (s : St) (hd : Disjoint s) (o : Op) :
    (run F s o).map St.lists = s.lists.run o ∧ ∀ s', run F s o = some s' → Disjoint s' := by
  cases o with
  | create i level capOf =>
    have h := hd.fresh i level _ _ _ (mkAll_fresh capOf level s.heap hd.unmade)
    refine ⟨?_, ?_⟩
    · show some _ = _
      rw [h.2]; rfl
    · intro s' he
      cases he
      exact h.1
  | load i level lists spare =>
    have h := hd.fresh i level _ _ _ (loadAll_fresh spare lists 0 s.heap hd.unmade)
    refine ⟨?_, ?_⟩
    · show some _ = _
      rw [h.2]; rfl
    · intro s' he
      cases he
      exact h.1
  | set i level l =>
    unfold run Lists.run
    simp only
    cases hv : s.verts i with
    | none => simp [St.lists, hv]
    | some v =>
      have hls : s.lists i = some (v.level, v.conns.map s.heap.read) := by simp [St.lists, hv]
      rw [hls]
      simp only [List.length_map]
      cases he : setConns F (mkList s.heap l).1 v level (mkList s.heap l).2 with
      | none =>
        have : ¬ level < v.conns.length := by
          intro hlt
          unfold setConns at he
          rw [List.getElem?_eq_getElem hlt] at he
          simp only at he
          split at he <;> cases he
        simp [this]
      | some r =>
        obtain ⟨h', v'⟩ := r
        have hl := setConns_local F s.heap v level l (hd.fits i v hv) h' v' he
        have hlt : level < v.conns.length := by
          obtain ⟨old, _, hold, _⟩ := hl.slice
          exact (List.getElem?_eq_some_iff.mp hold).1
        have h := hd.change i level v v' h' l hv hl
        refine ⟨?_, ?_⟩
        · rw [if_pos hlt]
          show some (s.put i h' v').lists = _
          rw [h.2]
        · intro s' he'
          cases he'
          exact disjoint_walks h.1 _
  | connect i level x max sel =>
    unfold run Lists.run
    simp only
    cases hv : s.verts i with
    | none => simp [St.lists, hv]
    | some v =>
      have hls : s.lists i = some (v.level, v.conns.map s.heap.read) := by simp [St.lists, hv]
      rw [hls]
      simp only
      have hu := hd.headers i v (upgraded v level) hv (upgraded_sub v level)
      have hlev : (upgraded v level).level = if v.level < level then level else v.level := by
        unfold upgraded; split <;> rfl
      have hconn := connect_local F s.heap v level x max sel (hu.1.fits i (upgraded v level) (by simp [St.put]))
      rw [← upgraded_reads s.heap hd.zero v level, ← hlev]
      cases hs : (upgraded v level).conns[level]? with
      | none =>
        rw [hs] at hconn
        simp only at hconn
        rw [hconn]
        simp [hs]
      | some sl =>
        rw [hs] at hconn
        simp only at hconn
        obtain ⟨h', v', he, hl⟩ := hconn
        rw [he]
        have hfu := hu.1.fits i (upgraded v level) (by simp [St.put])
        have hlen := read_length s.heap sl (hfu.len sl (List.mem_of_getElem? hs))
        have h := hu.1.change i level (upgraded v level) v' h' _ (by simp [St.put]) hl
        rw [put_put] at h
        refine ⟨?_, fun s' he' => ?_⟩
        · simp only [List.getElem?_map, hs, Option.map_some, hlen]
          rw [h.2, hu.2, lists_put_put]
          rfl
        · cases he'; exact h.1
  | clear i =>
    unfold run Lists.run
    simp only
    cases hv : s.verts i with
    | none => simp [St.lists, hv]
    | some v =>
      have hls : s.lists i = some (v.level, v.conns.map s.heap.read) := by simp [St.lists, hv]
      rw [hls]
      have h := hd.headers i v { v with conns := v.conns.map (fun s => ⟨s.arr, 0⟩) } hv (by
        intro m b hb
        simp only [List.getElem?_map] at hb
        cases hm : v.conns[m]? with
        | none => rw [hm] at hb; cases hb
        | some a =>
          rw [hm] at hb
          cases hb
          exact .inr ⟨a, rfl, rfl, Nat.zero_le _⟩)
      refine ⟨?_, fun s' he' => by cases he'; exact h.1⟩
      simp only [Option.map_some]
      rw [h.2]
      simp only [List.map_map]
      congr 2
  | nils i level =>
    unfold run Lists.run
    simp only
    cases hv : s.verts i with
    | none => simp [St.lists, hv]
    | some v =>
      have hls : s.lists i = some (v.level, v.conns.map s.heap.read) := by simp [St.lists, hv]
      rw [hls]
      have h := hd.headers i v { v with conns := List.replicate (level + 1) ⟨0, 0⟩ } hv (by
        intro m b hb
        simp only [List.getElem?_replicate] at hb
        split at hb
        · cases hb; exact .inl ⟨rfl, rfl⟩
        · cases hb)
      refine ⟨?_, fun s' he' => by cases he'; exact h.1⟩
      simp only [Option.map_some]
      rw [h.2]
      simp [Heap.read]
  | done w =>
    refine ⟨rfl, fun s' he => ?_⟩
    cases he
    exact disjoint_walks hd _

theorem empty_disjoint : Disjoint St.empty := ⟨rfl, Nat.zero_lt_one, nofun, fun _ _ => rfl, nofun⟩

end Fave.Mem
