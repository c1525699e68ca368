import Verif.Lemmas.Backup
/-!
# C61 — The files listed for a backup hold everything written before

Full statement (comments of backup.go:74-75, 84-89): after background work is paused and the commit log is switched, the files listed
hold everything written before the switch, they exist, and they do not change while operations are written; listing fails if background
work is not paused.

**False** of the code: a switch in the second in which the current file was opened opens the same file again, and the listing leaves it
out (`same_second_missing`).  A temporary file left by a failed combining is listed and removed at the same time (`listed_and_removed`).
Listing does not look at whether background work is paused (`Dir.listFiles` has no such error); a log that is condensed while files are
copied is missing from the backup then (`condensed_meanwhile_missing`).

`backup_complete_partial` proves the statement for every run of the commit log as in C59, if the current file was opened in an earlier
second than the switch.
-/
namespace Fave.C61
open Fave.Log

/-- For every run of the commit log followed by a forced switch in a later second than the one the current file is named after: whatever
is written while background work is paused, copies of the listed files in any order restore exactly what was written before the switch,
and none of them is missing. -/
theorem backup_complete_partial (L : Limits) (hm : 56250 ≤ L.maxLen) (lev : Nat → Nat) (t : Nat) (es : List KEv) (hst : Steady t es)
    (hw : ∀ op ∈ written es, op.Adds lev ∧ op.InRange ∧ op.Fits L.maxLen) (hf : ∀ e ∈ es, e.Fine)
    (hl : ∀ p, p <+: es → ∀ f, Survives [] [] p f → ∀ i l, linkLens f i l ≤ 65535) :
    ∃ k f, (Keeper.new t).run L es = some k ∧ Survives [] [] es f ∧
      (k.cur.ts < k.now → ∃ files d, (k.switch L true).dir.listFiles = some (files, d) ∧
        ∀ more, (∀ e ∈ more, e.Quiet) → ∃ k', (⟨d, (k.switch L true).cur, [], k.now⟩ : Keeper).run L more = some k' ∧
          (∀ n ∈ files, n ∈ k'.dir.names) ∧
          ∀ copied, copied.Perm files → ∃ s, (k'.dir.only copied).restore L.maxLen = (s, none) ∧ s.view = semAll View.empty f) := by
  obtain ⟨sure, f, k, en, last, h1, h2, h3⟩ := KInv.run L hm es (KInv.new lev L.maxLen t) hst
    (fun op ho => ⟨(hw op ho).1, (hw op ho).2.1, (hw op ho).2.2⟩) hf
    (fun p hp i l => by rw [List.prefix_nil.1 hp]; exact Nat.zero_le _) hl
  refine ⟨k, f, h1, by simpa using h2 [] f rfl, fun hlt => ?_⟩
  obtain ⟨en', hk⟩ := h3.switched L hlt
  have hnt : NoTmp (k.switch L true).dir := ((noTmp_new t).run h1).switch L true
  refine ⟨_, _, hk.listFiles, fun more hq => ?_⟩
  obtain ⟨k', r1, -, r3, r4⟩ := quiet_run (L := L) hq ⟨(k.switch L true).dir.sweep, (k.switch L true).cur, [], k.now⟩
  refine ⟨k', r1, ?_, fun copied hc => ?_⟩
  · intro n hn
    have hn1 := (List.mem_filter.1 (List.mem_filter.1 hn).1).1
    rw [r3]
    refine List.mem_filter.2 ⟨hn1, ?_⟩
    simpa using hnt n hn1
  · exact hk.backup (fun n hn => r4 n hn) hc

/-- the marks in the order in which they came -/
def asIs : LogState → List Nat := LogState.tombs

/-- limits: switch above 30 bytes, combine up to 200 -/
def small : Limits := ⟨30, 200, 2 ^ 45⟩

/-- The full statement fails: node 1 is written and flushed in the second in which the file was opened.  After the forced switch no file is
listed. -/
theorem same_second_missing :
    let es : List KEv := [.write (.addNode 1 0), .flush, .switch true]
    ((Keeper.new 100).run small es).map (fun k => (k.dir.listFiles.map Prod.fst, k.dir.names, (k.dir.content ⟨100, .plain⟩).length)) =
      some (some [], [⟨100, .plain⟩], 11) := by decide +kernel

/-- The full statement fails: a temporary file left by a failed combining is listed although the listing removes it. -/
theorem listed_and_removed :
    let d : Dir := ⟨[⟨100, .condensed⟩, ⟨100, .combining⟩, ⟨102, .plain⟩], fun _ => encodeAll [.addNode 1 0]⟩
    d.listFiles.map (fun r => (r.1, r.2.names)) =
      some ([⟨100, .condensed⟩, ⟨100, .combining⟩], [⟨100, .condensed⟩, ⟨102, .plain⟩]) := by decide +kernel

/-- The full statement fails if background work goes on: the listed file is gone when it is copied. -/
theorem condensed_meanwhile_missing :
    let es : List KEv := [.write (.addNode 1 0), .clock 101, .switch true]
    ((Keeper.new 100).run small es).map (fun k => (k.dir.listFiles.map Prod.fst)) = some (some [⟨100, .plain⟩]) ∧
    ((Keeper.new 100).run small (es ++ [.condense asIs])).map (fun k => k.dir.names) = some [⟨101, .plain⟩, ⟨100, .condensed⟩] := by
  decide +kernel

/-- non-vacuity: two files, the first one condensed; the current one was opened in second 101, the switch is in second 105 -/
def sample : List KEv := [.write (.addNode 1 2), .write (.setEntryPoint 1 2), .clock 101, .switch true, .condense asIs,
  .write (.addNode 2 0), .write (.addLinks 2 0 [1]), .clock 105]

/-- levels of the sample -/
def slev (i : Nat) : Nat := if i = 1 then 2 else 0

example : Steady 100 sample ∧ (∀ op ∈ written sample, op.Adds slev ∧ op.InRange ∧ op.Fits small.maxLen) ∧ (∀ e ∈ sample, e.Fine) ∧
    (∀ p, p <+: sample → ∀ f, Survives [] [] p f → ∀ i l, linkLens f i l ≤ 65535) := by
  refine ⟨by simp [sample, Steady], ?_, ?_, few_links (by decide)⟩
  · simp [sample, written, LogOp.Adds, slev, LogOp.InRange, LogOp.Fits, small]
  · simp [sample, KEv.Fine, asIs]

/-- the two files are listed, the new one is not -/
example : ((Keeper.new 100).run small sample).map (fun k => (k.cur.ts, k.now, (k.switch small true).dir.listFiles.map Prod.fst)) =
    some (101, 105, some [⟨101, .plain⟩, ⟨100, .condensed⟩]) := by decide +kernel

end Fave.C61
