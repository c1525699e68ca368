import Verif.Lemmas.KeeperStart
import Verif.Spec.Keeper
import Verif.Props.C29
/-!
# C59 — A commit log in use keeps every operation through switching, condensing, combining and restarts

Full statement: whatever is written to the commit log, however it is switched, condensed and combined meanwhile, and wherever the
process is stopped and started again: a start restores the effect of everything that was flushed, followed by a part of what was
written after that, in order.

**False** of the code.  If the clock is set back, the file written to is not the newest one; it is condensed and removed while it is
written to, and what is flushed to it afterwards is lost (`clock_set_back_loses`).  Deletions are forgotten by condensing
(`deleted_node_returns`; C27).  A stop between the renaming of a combined log and the removal of its sources doubles operations (C28).

`nothing_lost_partial` proves the statement for all runs without these: the clock does not go back, operations only add, and stops come
between the steps, while a condensed log is being written, or while a combined log is being copied.
`restart_recovers_partial` adds what a start after a stop reads.  Missing are the search start if the stop cuts it (C26), quantisation
records, and failing disk operations (C29).
-/
namespace Fave.C59
open Fave.Log

/-- For every sequence of steps: it runs through, and a start afterwards restores exactly the effect of what has to survive. -/
theorem nothing_lost_partial (L : Limits) (hm : 56250 ≤ L.maxLen) (lev : Nat → Nat) (t : Nat) (es : List KEv) (hst : Steady t es)
    (hw : ∀ op ∈ written es, op.Adds lev ∧ op.InRange ∧ op.Fits L.maxLen) (hf : ∀ e ∈ es, e.Fine)
    (hl : ∀ p, p <+: es → ∀ f, Survives [] [] p f → ∀ i l, linkLens f i l ≤ 65535) :
    ∃ k f, (Keeper.new t).run L es = some k ∧ Survives [] [] es f ∧
      ∃ s, k.flush.dir.restore L.maxLen = (s, none) ∧ s.view = semAll View.empty f := by
  obtain ⟨sure, f, k, en, last, h1, h2, h3⟩ := KInv.run L hm es (KInv.new lev L.maxLen t) hst
    (fun op ho => ⟨(hw op ho).1, (hw op ho).2.1, (hw op ho).2.2⟩) hf
    (fun p hp i l => by rw [List.prefix_nil.1 hp]; exact Nat.zero_le _) hl
  refine ⟨k, f, h1, by simpa using h2 [] f rfl, ?_⟩
  have hk := h3.flush
  have hls : ∀ op ∈ last, Plain lev L.maxLen op := fun op hop => hk.ok op (by rw [hk.hist]; exact List.mem_append_right _ hop)
  have hss : ∀ op ∈ en.flatMap Entry.seg, Plain lev L.maxLen op := fun op hop =>
    hk.ok op (by rw [hk.hist]; exact List.mem_append_left _ hop)
  have hall : ∀ o ∈ en.map Entry.ops ++ [last], ∀ op ∈ o, Plain lev L.maxLen op := by
    intro o ho op hop
    rcases List.mem_append.1 ho with ho | ho
    · obtain ⟨e, he, rfl⟩ := List.mem_map.1 ho
      exact (hk.same e he).ok op hop
    · simp only [List.mem_singleton] at ho; subst ho; exact hls op hop
  have hfiles : (fix k.flush.dir.listing).map k.flush.dir.content = (en.map Entry.ops ++ [last]).map encodeAll := by
    rw [fix_clean hk.clean.listing_nodup, hk.listing, List.map_append, List.map_append, List.map_map, List.map_map]
    congr 1
    · exact List.map_congr_left fun e he => hk.bytes e he
    · simp only [List.map_cons, List.map_nil]
      exact congrArg (fun x => [x]) h3.flushed
  obtain ⟨s, h4, h5⟩ := C29.restoreFiles_holds (maxLen := L.maxLen) fresh hfiles
    (fun o ho op hop => (hall o ho op hop).range) (fun o ho op hop => (hall o ho op hop).fits)
  refine ⟨s, h4, ?_⟩
  have e1 : (en.map Entry.ops ++ [last]).flatten = en.flatMap Entry.ops ++ last := by
    simp [List.flatMap_def]
  rw [h5, fresh_view, e1, semAll_append, sem_entries hk.same hss (Lev.empty lev), ← semAll_append, ← hk.hist]

/-- If the process stops after such a sequence of steps, it starts again, and the start reads the nodes and deletion marks of what has to
survive: all that was flushed, and a part of what was written after that. -/
theorem restart_recovers_partial (L : Limits) (hm : 56250 ≤ L.maxLen) (lev : Nat → Nat) (t : Nat) (es : List KEv) (hst : Steady t es)
    (hw : ∀ op ∈ written es, op.Adds lev ∧ op.InRange ∧ op.Fits L.maxLen) (hf : ∀ e ∈ es, e.Fine)
    (hl : ∀ p, p <+: es → ∀ f, Survives [] [] p f → ∀ i l, linkLens f i l ≤ 65535) (c : Crash) (hc : (KEv.crash c).Fine) :
    ∃ k f d st, (Keeper.new t).run L es = some k ∧ Survives [] [] (es ++ [.crash c]) f ∧
      (c.disk L k.dir).start L.maxLen = (d, st, none) ∧ (d.openLatest k.now).isSome ∧
      st.view.node = (semAll View.empty f).node ∧ st.view.tomb = (semAll View.empty f).tomb := by
  obtain ⟨sure, f, k, en, last, h1, h2, h3⟩ := KInv.run L hm es (KInv.new lev L.maxLen t) hst
    (fun op ho => ⟨(hw op ho).1, (hw op ho).2.1, (hw op ho).2.2⟩) hf
    (fun p hp i l => by rw [List.prefix_nil.1 hp]; exact Nat.zero_le _) hl
  obtain ⟨h', last', k', d, st, c1, c2, c3, -, -, c6, c7, c8⟩ := h3.crash L hc
  refine ⟨k, h', d, st, h1, h2 [.crash c] h' ⟨h', c2, c3, rfl⟩, c6, ?_, c7, c8⟩
  simp only [Keeper.step] at c1
  rw [c6] at c1
  simp only at c1
  rw [c1]; rfl

/-- the marks in the order in which they came -/
def asIs : LogState → List Nat := LogState.tombs

/-- limits: switch above 30 bytes, combine up to 200 -/
def small : Limits := ⟨30, 200, 2 ^ 45⟩

/-- which of the given nodes a start finds, after everything is flushed -/
def found (L : Limits) (k : Keeper) (ids : List Nat) : List Nat :=
  ids.filter fun i => ((k.flush.dir.restore L.maxLen).1.view.node i).isSome

/-- The full statement fails: a switch after the clock was set back from 100 to 50 makes 50 the current file; it is condensed and removed
while in use, and node 3, flushed after that, is not there after the next start. -/
theorem clock_set_back_loses :
    let es : List KEv := [.write (.addNode 1 0), .clock 50, .switch true, .write (.addNode 2 0), .flush, .condense asIs,
      .write (.addNode 3 0), .flush]
    Survives [] [] es [.addNode 1 0, .addNode 2 0, .addNode 3 0] ∧
    ((Keeper.new 100).run small es).map (fun k => found small k [2, 3]) = some [2] := by
  refine ⟨rfl, ?_⟩
  decide +kernel

/-- The full statement fails for deletions: a node deleted in another file than the one it was added in is back after condensing. -/
theorem deleted_node_returns :
    let es : List KEv := [.write (.addNode 1 0), .clock 101, .switch true, .write (.deleteNode 1), .clock 102, .switch true,
      .condense asIs, .condense asIs]
    Survives [] [] es [.addNode 1 0, .deleteNode 1] ∧ (semAll View.empty [.addNode 1 0, .deleteNode 1]).node 1 = none ∧
    ((Keeper.new 100).run small es).map (fun k => found small k [1]) = some [1] := by
  refine ⟨rfl, rfl, ?_⟩
  decide +kernel

/-- The full statement fails if the process stops between the renaming of a combined log and the removal of its sources: the second source is read
again at the next start, and the link of node 2 is there twice. -/
theorem stop_after_renaming_doubles_links :
    let es : List KEv := [.write (.addNode 1 0), .clock 101, .switch true, .write (.addNode 2 0), .write (.addLink 2 0 1), .clock 102, .switch true,
      .condense asIs, .condense asIs]
    ∀ c, c = Crash.renamed ∨ c = Crash.firstRemoved →
    Survives [] [] (es ++ [.flush, .crash c]) [.addNode 1 0, .addNode 2 0, .addLink 2 0 1] ∧
    (semAll View.empty [.addNode 1 0, .addNode 2 0, .addLink 2 0 1]).node 2 = some ⟨2, 0, [[1]]⟩ ∧
    ((Keeper.new 100).run small (es ++ [.flush, .crash c])).map (fun k => (k.flush.dir.restore small.maxLen).1.view.node 2) =
      some (some ⟨2, 0, [[1, 1]]⟩) := by
  intro es c hc
  rcases hc with rfl | rfl
  · refine ⟨⟨_, ⟨[], by simp⟩, ⟨[], by simp⟩, rfl⟩, by decide +kernel, by decide +kernel⟩
  · refine ⟨⟨_, ⟨[], by simp⟩, ⟨[], by simp⟩, rfl⟩, by decide +kernel, by decide +kernel⟩

/-- non-vacuity: three files, two of them condensed and combined, with a stop while the combined log is being copied and one while
operations are in the buffer (11 bytes of node 3 and its link have reached the disk) -/
def sample : List KEv := [.write (.addNode 1 2), .write (.setEntryPoint 1 2), .clock 101, .switch true, .write (.addNode 2 0),
  .write (.addLinks 2 0 [1]), .write (.replaceLinks 1 0 [2]), .write (.addTombstone 1), .clock 102, .switch true, .condense asIs,
  .condense asIs, .crash (.copying 7), .combine, .clock 103, .write (.addNode 3 0), .write (.addLink 3 0 2), .spill 16, .crash .idle]

/-- levels of the sample -/
def slev (i : Nat) : Nat := if i = 1 then 2 else 0

example : Steady 100 sample ∧ (∀ op ∈ written sample, op.Adds slev ∧ op.InRange ∧ op.Fits small.maxLen) ∧ (∀ e ∈ sample, e.Fine) ∧
    (∀ p, p <+: sample → ∀ f, Survives [] [] p f → ∀ i l, linkLens f i l ≤ 65535) := by
  refine ⟨by simp [sample, Steady], ?_, ?_, few_links (by decide)⟩
  · simp [sample, written, LogOp.Adds, slev, LogOp.InRange, LogOp.Fits, small]
  · simp [sample, KEv.Fine, asIs]

/-- node 3 is complete, its link is cut off -/
example : ((Keeper.new 100).run small sample).map (fun k => (k.dir.names, k.dir.content k.cur)) =
    some ([⟨102, .plain⟩, ⟨100, .plain⟩], encodeAll [.addNode 3 0]) := by decide +kernel

end Fave.C59
