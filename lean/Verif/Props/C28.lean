import Verif.Lemmas.Combine
import Verif.Lemmas.Overwrite
import Verif.Props.C25
/-!
# C28 — Combining commit logs preserves their order and content

Full statement: combining small condensed logs never changes the sequence of operations obtained by replaying all logs in file
order, and an interruption at any point followed by start-up clean-up leaves files that replay to the same state.

The first half is proved (`combine_preserves`, `combineAll_preserves`, `combineAll_finishes`).  The second half is **false**: when
the process stops after the renaming and before the second source is removed, that source is replayed twice, and links that it adds
end up in the graph twice (`interrupted_combine_duplicates_links`).  `interrupted_partial` says exactly what is replayed after an
interruption at any point; `interrupted_recovers_partial` proves that the state is nevertheless the same if the second log only
overwrites (no added links).  A half-written condensed log that was not cleaned up makes the combiner destroy its original
(`stale_condensed_destroys_original`), so `Clean` cannot be dropped.
-/
namespace Fave.C28
open Fave.Log

/-- the two logs the combiner picks -/
def picked (threshold : Nat) (d : Dir) : Option (FName × FName) :=
  firstMatch (fun n => (d.content n).length) threshold d.listing

theorem combinable {d : Dir} (hc : d.Clean) {t : Nat} {a b : FName} (h : picked t d = some (a, b)) :
    ∃ pre post, Combinable d a b pre post := by
  obtain ⟨pre, post, h1, h2, h3, -⟩ := firstMatch_split h
  exact ⟨pre, post, hc, h1, h2, h3⟩

/-- One round: the bytes to be replayed are the same as before, the directory stays clean, one file is gone, and all the other
files are still there in the same order. -/
theorem combine_preserves {d : Dir} (hc : d.Clean) {t : Nat} {a b : FName} (h : picked t d = some (a, b)) :
    (d.combine a b).replayed = d.replayed ∧ (d.combine a b).Clean ∧
    (d.combine a b).listing.length + 1 = d.listing.length ∧
    ∃ pre post, d.listing = pre ++ a :: b :: post ∧ (d.combine a b).listing = pre ++ a.base :: post := by
  obtain ⟨pre, post, hx⟩ := combinable hc h
  exact ⟨by rw [hx.replayed_done, hx.replayed], hx.clean_done, combine_names_lt hx, pre, post, hx.split, hx.listing_done⟩

/-- A complete run of the combiner, for every threshold and any number of rounds. -/
theorem combineAll_preserves (t fuel : Nat) {d : Dir} (hc : d.Clean) :
    (combineAll t fuel d).replayed = d.replayed ∧ (combineAll t fuel d).Clean := by
  induction fuel generalizing d with
  | zero => exact ⟨rfl, hc⟩
  | succ fuel ih =>
    have hs := sweep_clean hc
    simp only [combineAll]
    cases hm : firstMatch (fun n => (d.sweep.content n).length) t d.sweep.listing with
    | none => exact ⟨sweep_replayed d, hs⟩
    | some p =>
      obtain ⟨a, b⟩ := p
      obtain ⟨h1, h2, -⟩ := combine_preserves hs hm
      obtain ⟨h3, h4⟩ := ih h2
      exact ⟨by rw [h3, h1, sweep_replayed], h4⟩

/-- The run ends by itself: with one round more than there are files, no two logs are left to be combined. -/
theorem combineAll_finishes (t fuel : Nat) {d : Dir} (hc : d.Clean) (hf : d.listing.length < fuel) :
    picked t (combineAll t fuel d) = none := by
  induction fuel generalizing d with
  | zero => omega
  | succ fuel ih =>
    have hs := sweep_clean hc
    simp only [combineAll]
    cases hm : firstMatch (fun n => (d.sweep.content n).length) t d.sweep.listing with
    | none => exact hm
    | some p =>
      obtain ⟨a, b⟩ := p
      obtain ⟨-, h2, h3, -⟩ := combine_preserves hs hm
      rw [sweep_listing] at h3
      exact ih h2 (by omega)

/-- A run that makes at least one round leaves no unfinished combined file behind; it neither removes nor changes a `.scratch.tmp`
file nor an original log, apart from the ones that combining itself replaced. -/
theorem combineAll_leftovers (t fuel : Nat) {d : Dir} (hf : 0 < fuel) :
    (∀ n ∈ (combineAll t fuel d).names, n.kind ≠ .combining) ∧
    (∀ n : FName, n.kind = .scratch → (n ∈ (combineAll t fuel d).names ↔ n ∈ d.names) ∧
      (combineAll t fuel d).content n = d.content n) ∧
    (∀ n ∈ d.names, n.kind = .plain → n ∈ (combineAll t fuel d).names) := by
  induction fuel generalizing d with
  | zero => omega
  | succ fuel ih =>
    have hs : ∀ n : FName, n ∈ d.sweep.names ↔ n ∈ d.names ∧ n.kind ≠ .combining := by
      intro n
      show n ∈ d.names.filter _ ↔ _
      rw [List.mem_filter]
      simp
    simp only [combineAll]
    cases hm : firstMatch (fun n => (d.sweep.content n).length) t d.sweep.listing with
    | none =>
      refine ⟨fun n hn => ((hs n).1 hn).2, fun n hn => ⟨?_, rfl⟩, fun n hn hk => (hs n).2 ⟨hn, by rw [hk]; decide⟩⟩
      exact (hs n).trans ⟨fun h => h.1, fun h => ⟨h, by rw [hn]; decide⟩⟩
    | some ab =>
      obtain ⟨a, b⟩ := ab
      obtain ⟨pre, post, -, ha, hb, -⟩ := firstMatch_split hm
      have hmem : ∀ n : FName, n ∈ (d.sweep.combine a b).names ↔
          (n = a.base ∨ (n ∈ d.sweep.names ∧ n ≠ a.tmp)) ∧ n ≠ a ∧ n ≠ b := by
        intro n
        unfold Dir.combine Dir.renamed Dir.put Dir.erase
        simp only [List.mem_filter, decide_eq_true_eq, ne_eq]
        split
        · rename_i h
          simp only [List.mem_filter, decide_eq_true_eq]
          constructor
          · rintro ⟨⟨h1, h2⟩, h3⟩
            exact ⟨Or.inr h1, h2, h3⟩
          · rintro ⟨h1 | h1, h2, h3⟩
            · exact ⟨⟨by rw [h1]; exact h, h2⟩, h3⟩
            · exact ⟨⟨h1, h2⟩, h3⟩
        · simp only [List.mem_append, List.mem_filter, decide_eq_true_eq, List.mem_singleton]
          constructor
          · rintro ⟨⟨h1 | h1, h2⟩, h3⟩
            · exact ⟨Or.inr h1, h2, h3⟩
            · exact ⟨Or.inl h1, h2, h3⟩
          · rintro ⟨h1 | h1, h2, h3⟩
            · exact ⟨⟨Or.inr h1, h2⟩, h3⟩
            · exact ⟨⟨Or.inl h1, h2⟩, h3⟩
      have hne : ∀ n : FName, n.kind ≠ .condensed → n ≠ a ∧ n ≠ b :=
        fun n hn => ⟨fun h => hn (by rw [h]; exact ha), fun h => hn (by rw [h]; exact hb)⟩
      have hplain : ∀ n ∈ d.names, n.kind = .plain → n ∈ (d.sweep.combine a b).names := by
        intro n hn hk
        refine (hmem n).2 ⟨Or.inr ⟨(hs n).2 ⟨hn, by rw [hk]; decide⟩, ?_⟩, hne n (by rw [hk]; decide)⟩
        intro h
        rw [h] at hk
        exact absurd hk (by show Kind.combining ≠ Kind.plain; decide)
      have hscr : ∀ n : FName, n.kind = .scratch → (n ∈ (d.sweep.combine a b).names ↔ n ∈ d.names) ∧
          (d.sweep.combine a b).content n = d.content n := by
        intro n hk
        have hb1 : n ≠ a.base := fun h => by
          rw [h] at hk
          exact absurd hk (by show Kind.plain ≠ Kind.scratch; decide)
        have hb2 : n ≠ a.tmp := fun h => by
          rw [h] at hk
          exact absurd hk (by show Kind.combining ≠ Kind.scratch; decide)
        constructor
        · rw [hmem, hs]
          constructor
          · rintro ⟨h1 | h1, -⟩
            · exact (hb1 h1).elim
            · exact h1.1.1
          · intro h
            exact ⟨Or.inr ⟨⟨h, by rw [hk]; decide⟩, hb2⟩, hne n (by rw [hk]; decide)⟩
        · show (if n = a.base then _ else d.content n) = d.content n
          exact if_neg hb1
      cases fuel with
      | zero =>
        refine ⟨?_, hscr, hplain⟩
        intro n hn
        rcases ((hmem n).1 hn).1 with h | h
        · rw [h]
          show Kind.plain ≠ Kind.combining
          decide
        · exact ((hs n).1 h.1).2
      | succ fuel =>
        obtain ⟨i1, i2, i3⟩ := ih (d := d.sweep.combine a b) (Nat.succ_pos _)
        refine ⟨i1, fun n hk => ⟨((i2 n hk).1).trans (hscr n hk).1, ((i2 n hk).2).trans (hscr n hk).2⟩, ?_⟩
        intro n hn hk
        exact i3 n (hplain n hn hk) hk

/-- Interrupted at any point: either exactly the same bytes are replayed at the next start, or the bytes of the second log occur
twice in a row. -/
theorem interrupted_partial {d : Dir} (hc : d.Clean) {t : Nat} {a b : FName} (h : picked t d = some (a, b)) {d' : Dir}
    (hcr : CombineCrash d a b d') :
    d'.replayed = d.replayed ∨
    ((d' = d.renamed a b ∨ d' = (d.renamed a b).erase a) ∧
      ∃ pre post, d.listing = pre ++ a :: b :: post ∧
        d.replayed = (pre.map d.content).flatten ++ d.content a ++ d.content b ++ (post.map d.content).flatten ∧
        d'.replayed = (pre.map d.content).flatten ++ d.content a ++ d.content b ++ d.content b ++ (post.map d.content).flatten) := by
  obtain ⟨pre, post, hx⟩ := combinable hc h
  cases hcr with
  | before => exact .inl rfl
  | copying p hp =>
    refine .inl (replayed_congr (put_visible_tmp d a.tmp p rfl) fun n _ hv => ?_)
    show (if n = a.tmp then p else d.content n) = _
    rw [if_neg]
    intro e; subst e; cases hv
  | renamed =>
    refine .inr ⟨.inl rfl, pre, post, hx.split, ?_, ?_⟩
    · rw [hx.replayed]; simp [Dir.merged]
    · rw [hx.replayed_renamed]; simp [Dir.merged]
  | firstRemoved =>
    refine .inr ⟨.inr rfl, pre, post, hx.split, ?_, ?_⟩
    · rw [hx.replayed]; simp [Dir.merged]
    · rw [hx.replayed_first]; simp [Dir.merged]
  | done => exact .inl (combine_preserves hc h).1

/-- every visible file holds the encoding of some operations -/
structure Holds (d : Dir) (maxLen : Nat) (ops : FName → List LogOp) : Prop where
  bytes : ∀ n ∈ d.listing, d.content n = encodeAll (ops n)
  range : ∀ n ∈ d.listing, ∀ op ∈ ops n, op.InRange
  fits : ∀ n ∈ d.listing, ∀ op ∈ ops n, op.Fits maxLen

theorem flatten_encode {d : Dir} {maxLen : Nat} {ops : FName → List LogOp} (h : Holds d maxLen ops) {l : List FName}
    (hl : ∀ n ∈ l, n ∈ d.listing) : (l.map d.content).flatten = encodeAll (l.flatMap ops) := by
  induction l with
  | nil => rfl
  | cons n l ih =>
    rw [List.map_cons, List.flatten_cons, List.flatMap_cons, encodeAll_append, ih fun m hm => hl m (by simp [hm]),
      h.bytes n (hl n (by simp))]

/-- If the second log only overwrites, an interruption at any point is harmless: the next start replays without error to the
state that the files described before. -/
theorem interrupted_recovers_partial {d : Dir} (hc : d.Clean) {t : Nat} {a b : FName} (h : picked t d = some (a, b)) {d' : Dir}
    (hcr : CombineCrash d a b d') {maxLen : Nat} {ops : FName → List LogOp} (ho : Holds d maxLen ops)
    (hover : ∀ op ∈ ops b, op.Overwrites) :
    ∃ s n s' n', replay maxLen false fresh d.replayed = (s, n, none) ∧ replay maxLen false fresh d'.replayed = (s', n', none) ∧
      s'.view = s.view ∧ s.view = semAll View.empty (d.listing.flatMap ops) := by
  have key : ∀ l : List FName, (∀ n ∈ l, n ∈ d.listing) →
      ∃ s n, replay maxLen false fresh ((l.map d.content).flatten) = (s, n, none) ∧ s.view = semAll View.empty (l.flatMap ops) := by
    intro l hl
    rw [flatten_encode ho hl]
    refine C25.replay_from_scratch_partial maxLen _ (fun op hm => ?_) (fun op hm => ?_)
    · obtain ⟨n, hn, hop⟩ := List.mem_flatMap.1 hm
      exact ho.range n (hl n hn) op hop
    · obtain ⟨n, hn, hop⟩ := List.mem_flatMap.1 hm
      exact ho.fits n (hl n hn) op hop
  have hd : d.replayed = (d.listing.map d.content).flatten := by
    unfold Dir.replayed; rw [fix_clean hc.listing_nodup]
  obtain ⟨s, n, h1, h2⟩ := key d.listing fun _ hh => hh
  rcases interrupted_partial hc h hcr with he | ⟨-, pre, post, hs, -, he⟩
  · exact ⟨s, n, s, n, by rw [hd, h1], by rw [he, hd, h1], rfl, h2⟩
  · have hl : ∀ n ∈ pre ++ a :: b :: b :: post, n ∈ d.listing := by
      rw [hs]; intro n hn; simp only [List.mem_append, List.mem_cons] at hn ⊢
      rcases hn with hn | hn | hn | hn | hn <;> simp [hn]
    obtain ⟨s', n', h3, h4⟩ := key _ hl
    refine ⟨s, n, s', n', by rw [hd, h1], ?_, ?_, h2⟩
    · rw [he, ← h3]; simp
    · rw [h4, h2, hs]
      simp only [List.flatMap_append, List.flatMap_cons, semAll_append]
      rw [semAll_twice _ _ hover]

/-! ## where the full statement fails -/

/-- two condensed logs and the log in use; the second one adds a link -/
def three : Dir :=
  ⟨[⟨30, .plain⟩, ⟨10, .condensed⟩, ⟨20, .condensed⟩],
   fun n => if n.ts = 10 then encodeAll [.addNode 3 1, .setEntryPoint 3 1] else if n.ts = 20 then encodeAll [.addLinks 3 0 [4]]
     else encodeAll [.addNode 4 0]⟩

/-- Stopped between the renaming and the removal of the second source: link 3 → 4 is in the graph twice. -/
theorem interrupted_combine_duplicates_links :
    three.Clean ∧ picked 100 three = some (⟨10, .condensed⟩, ⟨20, .condensed⟩) ∧
    CombineCrash three ⟨10, .condensed⟩ ⟨20, .condensed⟩ (three.renamed ⟨10, .condensed⟩ ⟨20, .condensed⟩) ∧
    (replay (2 ^ 45) false fresh three.replayed).1.view.node 3 = some ⟨3, 1, [[4], []]⟩ ∧
    (replay (2 ^ 45) false fresh (three.renamed ⟨10, .condensed⟩ ⟨20, .condensed⟩).replayed).1.view.node 3 =
      some ⟨3, 1, [[4, 4], []]⟩ := by
  refine ⟨⟨by decide, by decide⟩, by decide, .renamed, ?_, ?_⟩ <;> decide +kernel

/-- an original (10) with a half-written condensed form next to it, and a second condensed log -/
def stale : Dir :=
  ⟨[⟨10, .plain⟩, ⟨10, .condensed⟩, ⟨20, .condensed⟩, ⟨30, .plain⟩],
   fun n => if n = ⟨10, .plain⟩ then encodeAll [.addNode 3 1, .addLinks 3 0 [4]] else if n.ts = 10 then encodeAll [.addNode 3 1]
     else if n.ts = 20 then encodeAll [.addNode 5 0] else []⟩

/-- If condensing failed without the process stopping, the half-written file is still there when the combiner runs; it is
combined with its neighbour and the result is renamed over the original, whose remaining operations are lost. -/
theorem stale_condensed_destroys_original :
    picked 100 stale = some (⟨10, .condensed⟩, ⟨20, .condensed⟩) ∧
    (replay (2 ^ 45) false fresh stale.replayed).1.view.node 3 = some ⟨3, 1, [[4], []]⟩ ∧
    (replay (2 ^ 45) false fresh (stale.combine ⟨10, .condensed⟩ ⟨20, .condensed⟩).replayed).1.view.node 3 =
      some ⟨3, 1, [[], []]⟩ := by
  refine ⟨by decide, ?_, ?_⟩ <;> decide +kernel

/-! ## the hypotheses are met -/

/-- an unfinished combined file goes, a scratch file stays -/
example : (combineAll 100 1 ⟨[⟨5, .combining⟩, ⟨6, .scratch⟩, ⟨7, .plain⟩], fun _ => []⟩).names = [⟨6, .scratch⟩, ⟨7, .plain⟩] := by
  decide +kernel


/-- four files, of which the first three are combined in two rounds -/
def four : Dir :=
  ⟨[⟨40, .plain⟩, ⟨10, .condensed⟩, ⟨30, .condensed⟩, ⟨20, .condensed⟩, ⟨10, .combining⟩],
   fun n => if n.ts = 10 then encodeAll [.addNode 3 1, .setEntryPoint 3 1, .addLinks 3 0 [4]]
     else if n.ts = 20 then encodeAll [.addNode 4 0, .replaceLinks 3 0 [4], .addTombstone 4]
     else if n.ts = 30 then encodeAll [.addLinks 4 0 [3]] else encodeAll [.removeTombstone 4]⟩

example : four.Clean ∧ picked 100 four = some (⟨10, .condensed⟩, ⟨20, .condensed⟩) ∧
    (combineAll 100 6 four).listing = [⟨10, .plain⟩, ⟨30, .condensed⟩, ⟨40, .plain⟩] ∧
    (combineAll 70 6 four).listing = [⟨10, .condensed⟩, ⟨20, .plain⟩, ⟨40, .plain⟩] ∧ four.listing.length < 6 := by
  refine ⟨⟨by decide, by decide⟩, by decide, by decide +kernel, by decide +kernel, by decide⟩

/-- and its files hold encoded operations; the second one only overwrites -/
example : ∃ ops : FName → List LogOp, Holds four (2 ^ 45) ops ∧ ∀ op ∈ ops ⟨20, .condensed⟩, op.Overwrites := by
  refine ⟨fun n => if n.ts = 10 then [.addNode 3 1, .setEntryPoint 3 1, .addLinks 3 0 [4]]
     else if n.ts = 20 then [.addNode 4 0, .replaceLinks 3 0 [4], .addTombstone 4]
     else if n.ts = 30 then [.addLinks 4 0 [3]] else [.removeTombstone 4], ⟨?_, ?_, ?_⟩, ?_⟩
  · intro n _; simp only [four]; repeat' split
    all_goals rfl
  · intro n _; repeat' split
    all_goals simp [LogOp.InRange]
  · intro n _; repeat' split
    all_goals simp [LogOp.Fits]
  · simp [LogOp.Overwrites]

end Fave.C28
