import Verif.Lemmas.Races
/-!
# Lemmas about accesses: what each call uses, and which pairs of calls can not exclude each other
-/
namespace Fave.Locks

/-- for each call, the accesses with the fewest locks around them -/
def Op.profile : Op → List Use
  | .login => [⟨.session, true, [(.client, true)]⟩]
  | .openPod => [⟨.pod, true, [(.client, true)]⟩, ⟨.session, false, [(.client, true)]⟩]
  | .collections => [⟨.session, false, [(.client, true)]⟩, ⟨.pod, false, [(.client, true)]⟩]
  | .create => [⟨.session, false, [(.client, true)]⟩, ⟨.pod, false, [(.client, true)]⟩, ⟨.indices, true, [(.table, true), (.client, true)]⟩]
  | .drop => [⟨.session, false, [(.client, true)]⟩, ⟨.pod, false, [(.client, true)]⟩, ⟨.indices, true, [(.table, true), (.client, true)]⟩]
  | .addDocuments => [⟨.pod, false, []⟩, ⟨.session, false, []⟩, ⟨.indices, true, [(.table, true)]⟩, ⟨.indices, false, [(.table, true)]⟩,
      ⟨.entry, false, []⟩, ⟨.once, false, [(.delIns, false), (.compress, false)]⟩,
      ⟨.entry, true, [(.graph, true), (.delIns, false), (.compress, false)]⟩,
      ⟨.layer, true, [(.graph, true), (.delIns, false), (.compress, false)]⟩,
      ⟨.maint, true, [(.vertex, true), (.delIns, false), (.compress, false)]⟩,
      ⟨.slot, true, [(.shard, false), (.delIns, false), (.compress, false)]⟩, ⟨.quant, false, [(.delIns, false), (.compress, false)]⟩,
      ⟨.code, true, [(.shard, false), (.delIns, false), (.compress, false)]⟩,
      ⟨.code, false, [(.shard, false), (.delIns, false), (.compress, false)]⟩,
      ⟨.tombs, false, [(.tomb, false), (.delIns, false), (.compress, false)]⟩,
      ⟨.tombs, true, [(.tomb, true), (.delIns, false), (.compress, false)]⟩,
      ⟨.lists, true, [(.pool, true), (.visited, true), (.delIns, false), (.compress, false)]⟩,
      ⟨.layer, false, [(.delIns, false), (.compress, false)]⟩, ⟨.slot, false, [(.shard, false), (.delIns, false), (.compress, false)]⟩,
      ⟨.edges, true, [(.vertex, true), (.delIns, false), (.compress, false)]⟩, ⟨.committed, false, []⟩, ⟨.edges, false, []⟩,
      ⟨.maint, false, []⟩, ⟨.committed, true, []⟩, ⟨.file, true, [(.log, true)]⟩]
  | .near => [⟨.pod, false, []⟩, ⟨.session, false, []⟩, ⟨.indices, true, [(.table, true)]⟩, ⟨.indices, false, [(.table, true)]⟩,
      ⟨.entry, true, [(.graph, false)]⟩, ⟨.entry, false, []⟩, ⟨.code, false, [(.shard, false)]⟩, ⟨.tombs, false, [(.tomb, false)]⟩,
      ⟨.tombs, true, [(.tomb, true)]⟩, ⟨.file, true, [(.log, true), (.tomb, true)]⟩, ⟨.quant, false, []⟩, ⟨.layer, false, []⟩,
      ⟨.lists, true, [(.pool, true), (.visited, true)]⟩, ⟨.edges, false, [(.vertex, true)]⟩]
  | .getDocument => [⟨.session, false, []⟩, ⟨.pod, false, []⟩]
  | .add => [⟨.once, false, [(.delIns, false), (.compress, false)]⟩, ⟨.entry, true, [(.graph, true), (.delIns, false), (.compress, false)]⟩,
      ⟨.layer, true, [(.graph, true), (.delIns, false), (.compress, false)]⟩,
      ⟨.maint, true, [(.vertex, true), (.delIns, false), (.compress, false)]⟩,
      ⟨.entry, false, [(.graph, false), (.delIns, false), (.compress, false)]⟩,
      ⟨.file, true, [(.log, true), (.delIns, false), (.compress, false)]⟩,
      ⟨.slot, true, [(.shard, false), (.delIns, false), (.compress, false)]⟩, ⟨.quant, false, [(.delIns, false), (.compress, false)]⟩,
      ⟨.code, true, [(.shard, false), (.delIns, false), (.compress, false)]⟩,
      ⟨.code, false, [(.shard, false), (.delIns, false), (.compress, false)]⟩,
      ⟨.tombs, false, [(.tomb, false), (.delIns, false), (.compress, false)]⟩,
      ⟨.tombs, true, [(.tomb, true), (.delIns, false), (.compress, false)]⟩,
      ⟨.lists, true, [(.pool, true), (.visited, true), (.delIns, false), (.compress, false)]⟩,
      ⟨.edges, false, [(.vertex, true), (.delIns, false), (.compress, false)]⟩,
      ⟨.maint, false, [(.vertex, true), (.delIns, false), (.compress, false)]⟩, ⟨.layer, false, [(.delIns, false), (.compress, false)]⟩,
      ⟨.slot, false, [(.shard, false), (.delIns, false), (.compress, false)]⟩, ⟨.pod, false, []⟩,
      ⟨.edges, true, [(.vertex, true), (.delIns, false), (.compress, false)]⟩,
      ⟨.committed, true, [(.vertex, true), (.delIns, false), (.compress, false)]⟩]
  | .validate => [⟨.entry, false, []⟩, ⟨.slot, false, [(.shard, false)]⟩, ⟨.pod, false, []⟩, ⟨.slot, true, [(.shard, true)]⟩]
  | .flush => [⟨.committed, false, []⟩, ⟨.edges, false, []⟩, ⟨.maint, false, []⟩, ⟨.committed, true, []⟩, ⟨.entry, false, []⟩,
      ⟨.file, true, [(.log, true)]⟩]
  | .loadEntry => [⟨.entry, true, [(.graph, false)]⟩]
  | .search => [⟨.code, false, [(.shard, false), (.compress, false)]⟩, ⟨.tombs, false, [(.tomb, false), (.compress, false)]⟩,
      ⟨.tombs, true, [(.tomb, true), (.compress, false)]⟩, ⟨.file, true, [(.log, true), (.tomb, true), (.compress, false)]⟩,
      ⟨.quant, false, [(.compress, false)]⟩, ⟨.entry, false, [(.compress, false)]⟩, ⟨.layer, false, [(.compress, false)]⟩,
      ⟨.lists, true, [(.pool, true), (.visited, true), (.compress, false)]⟩, ⟨.edges, false, [(.vertex, true), (.compress, false)]⟩,
      ⟨.maint, false, [(.vertex, true), (.compress, false)]⟩]
  | .searchDist => [⟨.code, false, [(.shard, false), (.compress, false)]⟩, ⟨.tombs, false, [(.tomb, false), (.compress, false)]⟩,
      ⟨.tombs, true, [(.tomb, true), (.compress, false)]⟩, ⟨.file, true, [(.log, true), (.tomb, true), (.compress, false)]⟩,
      ⟨.quant, false, [(.compress, false)]⟩, ⟨.entry, false, [(.compress, false)]⟩, ⟨.layer, false, [(.compress, false)]⟩,
      ⟨.lists, true, [(.pool, true), (.visited, true), (.compress, false)]⟩, ⟨.edges, false, [(.vertex, true), (.compress, false)]⟩,
      ⟨.maint, false, [(.vertex, true), (.compress, false)]⟩]
  | .maxDist => [⟨.entry, false, []⟩, ⟨.code, false, [(.shard, false)]⟩, ⟨.tombs, false, [(.tomb, false)]⟩, ⟨.tombs, true, [(.tomb, true)]⟩,
      ⟨.file, true, [(.log, true), (.tomb, true)]⟩, ⟨.quant, false, []⟩, ⟨.layer, false, []⟩,
      ⟨.lists, true, [(.pool, true), (.visited, true)]⟩, ⟨.edges, false, [(.vertex, true)]⟩]
  | .delete => [⟨.tombs, true, [(.tomb, true), (.delete, true), (.delIns, true), (.compress, false)]⟩,
      ⟨.entry, false, [(.graph, false), (.delete, true), (.delIns, true), (.compress, false)]⟩,
      ⟨.tombs, false, [(.tomb, true), (.delete, true), (.delIns, true), (.compress, false)]⟩,
      ⟨.resetCtx, true, [(.reset, true), (.graph, true), (.delete, true), (.delIns, true), (.compress, false)]⟩,
      ⟨.once, true, [(.reset, true), (.graph, true), (.delete, true), (.delIns, true), (.compress, false)]⟩,
      ⟨.edges, false, [(.vertex, true), (.delete, true), (.delIns, true), (.compress, false)]⟩,
      ⟨.entry, true, [(.graph, true), (.delete, true), (.delIns, true), (.compress, false)]⟩,
      ⟨.layer, true, [(.graph, true), (.delete, true), (.delIns, true), (.compress, false)]⟩,
      ⟨.file, true, [(.log, true), (.delete, true), (.delIns, true), (.compress, false)]⟩]
  | .compress => [⟨.quant, true, []⟩, ⟨.pod, false, []⟩, ⟨.slot, true, [(.shard, true)]⟩, ⟨.slot, false, []⟩,
      ⟨.quant, false, [(.compress, true)]⟩, ⟨.code, true, [(.shard, false), (.compress, true)]⟩,
      ⟨.file, true, [(.log, true), (.compress, true)]⟩]
  | .cleanUp => [⟨.resetCtx, false, [(.reset, true)]⟩, ⟨.entry, false, [(.graph, false), (.reset, true)]⟩,
      ⟨.slot, false, [(.shard, false), (.reset, true)]⟩, ⟨.pod, false, []⟩, ⟨.slot, true, [(.shard, true), (.reset, true)]⟩,
      ⟨.code, false, [(.shard, false), (.reset, true)]⟩, ⟨.quant, false, [(.reset, true)]⟩,
      ⟨.tombs, false, [(.tomb, false), (.reset, true)]⟩, ⟨.edges, false, [(.vertex, true), (.reset, true)]⟩,
      ⟨.lists, true, [(.pool, true), (.visited, true), (.reset, true)]⟩, ⟨.maint, false, [(.vertex, true), (.reset, true)]⟩,
      ⟨.edges, true, [(.vertex, true), (.reset, true)]⟩, ⟨.layer, false, [(.reset, true)]⟩,
      ⟨.maint, true, [(.vertex, true), (.reset, true)]⟩, ⟨.committed, true, [(.vertex, true), (.reset, true)]⟩,
      ⟨.entry, true, [(.graph, true), (.reset, true)]⟩, ⟨.layer, true, [(.graph, true), (.reset, true)]⟩, ⟨.tombs, true, [(.tomb, true)]⟩,
      ⟨.code, true, [(.shard, true), (.reset, true)]⟩, ⟨.file, true, [(.log, true)]⟩, ⟨.resetCtx, true, [(.reset, true), (.graph, true)]⟩,
      ⟨.once, true, [(.reset, true), (.graph, true)]⟩]
  | .cleanUpEntryFails => [⟨.resetCtx, false, [(.reset, true)]⟩, ⟨.entry, false, [(.graph, false), (.reset, true)]⟩,
      ⟨.slot, false, [(.shard, false), (.reset, true)]⟩, ⟨.pod, false, []⟩, ⟨.slot, true, [(.shard, true), (.reset, true)]⟩,
      ⟨.code, false, [(.shard, false), (.reset, true)]⟩, ⟨.quant, false, [(.reset, true)]⟩,
      ⟨.tombs, false, [(.tomb, false), (.reset, true)]⟩, ⟨.tombs, true, [(.tomb, true), (.reset, true)]⟩,
      ⟨.edges, false, [(.vertex, true), (.reset, true)]⟩, ⟨.lists, true, [(.pool, true), (.visited, true), (.reset, true)]⟩,
      ⟨.maint, false, [(.vertex, true), (.reset, true)]⟩, ⟨.edges, true, [(.vertex, true), (.reset, true)]⟩,
      ⟨.file, true, [(.log, true), (.reset, true)]⟩, ⟨.layer, false, [(.reset, true)]⟩, ⟨.maint, true, [(.vertex, true), (.reset, true)]⟩,
      ⟨.committed, true, [(.vertex, true), (.reset, true)]⟩, ⟨.entry, true, [(.graph, true), (.reset, true)]⟩,
      ⟨.layer, true, [(.graph, true), (.reset, true)]⟩]
  | .cleanUpRemoveFails => [⟨.resetCtx, false, [(.reset, true)]⟩, ⟨.entry, false, [(.graph, false), (.reset, true)]⟩,
      ⟨.slot, false, [(.shard, false), (.reset, true)]⟩, ⟨.pod, false, []⟩, ⟨.slot, true, [(.shard, true), (.reset, true)]⟩,
      ⟨.code, false, [(.shard, false), (.reset, true)]⟩, ⟨.quant, false, [(.reset, true)]⟩,
      ⟨.tombs, false, [(.tomb, false), (.reset, true)]⟩, ⟨.edges, false, [(.vertex, true), (.reset, true)]⟩,
      ⟨.lists, true, [(.pool, true), (.visited, true), (.reset, true)]⟩, ⟨.maint, false, [(.vertex, true), (.reset, true)]⟩,
      ⟨.edges, true, [(.vertex, true), (.reset, true)]⟩, ⟨.layer, false, [(.reset, true)]⟩,
      ⟨.maint, true, [(.vertex, true), (.reset, true)]⟩, ⟨.committed, true, [(.vertex, true), (.reset, true)]⟩,
      ⟨.entry, true, [(.graph, true), (.reset, true)]⟩, ⟨.layer, true, [(.graph, true), (.reset, true)]⟩, ⟨.tombs, true, [(.tomb, true)]⟩,
      ⟨.code, true, [(.shard, true), (.reset, true)]⟩, ⟨.file, true, [(.log, true)]⟩]

/-- the left use has no lock around it that the right one lacks -/
def Use.below (u v : Use) : Bool :=
  u.field == v.field && u.write == v.write && u.held.all fun x => v.held.any fun y => x.1 == y.1 && (!x.2 || y.2)

theorem profile_below (a : Op) : ((a.prog.uses []).all fun v => a.profile.any fun u => u.below v) = true := by
  cases a <;> decide +kernel

theorem clash_below {u u' v v' : Use} (hu : u'.below u = true) (hv : v'.below v = true) (h : clash u v = true) : clash u' v' = true := by
  simp only [Use.below, Bool.and_eq_true, beq_iff_eq, List.all_eq_true] at hu hv
  simp only [clash, Bool.and_eq_true, beq_iff_eq, Bool.not_eq_true'] at h ⊢
  refine ⟨⟨by rw [hu.1.1, hv.1.1, h.1.1], by rw [hu.1.2, hv.1.2]; exact h.1.2⟩, ?_⟩
  rw [Bool.eq_false_iff]
  intro hany
  obtain ⟨x', hx', hany⟩ := List.any_eq_true.mp hany
  obtain ⟨y', hy', hxy⟩ := List.any_eq_true.mp hany
  obtain ⟨x, hx, hxx⟩ := List.any_eq_true.mp (hu.2 x' hx')
  obtain ⟨y, hy, hyy⟩ := List.any_eq_true.mp (hv.2 y' hy')
  simp only [Bool.and_eq_true, beq_iff_eq] at hxx hyy hxy
  refine absurd h.2 (Bool.not_eq_false _ |>.mpr ?_)
  refine List.any_eq_true.mpr ⟨x, hx, List.any_eq_true.mpr ⟨y, hy, ?_⟩⟩
  simp only [Bool.and_eq_true, beq_iff_eq]
  refine ⟨by rw [← hxx.1, ← hyy.1]; exact hxy.1, ?_⟩
  revert hxx hyy hxy
  cases x.2 <;> cases y.2 <;> cases x'.2 <;> cases y'.2 <;> simp

def Op.all : List Op := [.login, .openPod, .collections, .create, .drop, .addDocuments, .near, .getDocument, .add, .validate, .flush, .loadEntry,
  .search, .searchDist, .maxDist, .delete, .compress, .cleanUp, .cleanUpEntryFails, .cleanUpRemoveFails]

theorem Op.mem_all (a : Op) : a ∈ Op.all := by cases a <;> decide

def Field.all : List Field := [.session, .pod, .indices, .entry, .layer, .once, .resetCtx, .tombs, .edges, .maint, .committed, .slot, .code,
  .quant, .lists, .file]

theorem Field.mem_all (f : Field) : f ∈ Field.all := by cases f <;> decide

theorem pairs : (Op.all.all fun a => Op.all.all fun b => a.profile.all fun u => b.profile.all fun v => !clash u v || racy u.field a b) = true := by
  decide +kernel

/-- accesses that do not exclude each other are in the table -/
theorem clash_racy {a b : Op} {u v : Use} (hu : u ∈ a.prog.uses []) (hv : v ∈ b.prog.uses []) (h : clash u v = true) :
    racy u.field a b = true := by
  obtain ⟨u', hu', hb⟩ := List.any_eq_true.mp (List.all_eq_true.mp (profile_below a) u hu)
  obtain ⟨v', hv', hb'⟩ := List.any_eq_true.mp (List.all_eq_true.mp (profile_below b) v hv)
  have hc := clash_below hb hb' h
  have := List.all_eq_true.mp (List.all_eq_true.mp (List.all_eq_true.mp (List.all_eq_true.mp pairs a a.mem_all) b b.mem_all) u' hu') v' hv'
  rw [hc] at this
  simp only [Bool.not_true, Bool.false_or] at this
  have hf : u'.field = u.field := by
    simp only [Use.below, Bool.and_eq_true, beq_iff_eq] at hb
    exact hb.1.1
  rwa [hf] at this

end Fave.Locks
