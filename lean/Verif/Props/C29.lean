import Verif.Lemmas.Fixer
import Verif.Props.C27
import Verif.Props.C28
/-!
# C29 — Start-up clean-up removes exactly the half-written condensed logs

Full statement: at start-up a condensed log is discarded exactly if its uncondensed original is still present; no original and no
complete condensed log is ever removed.

The first half is proved for every list of names (`removes_exactly`, `stops_at_failure`, `original_never_removed`), and the
model used for directories agrees with it (`agrees_on_text`).  "No complete condensed log is ever removed" is **false**
word by word: a condensed log is complete before its original is removed, and clean-up discards it then
(`complete_condensed_removed`).  What matters is proved instead: an interruption of condensing at any point leaves either the bytes
of the original or, once it is removed, exactly the new ones (`condense_interrupted_partial`), and the start-up reaches the same state
(`condense_interrupted_recovers_partial`).  Without the interruption, a failed attempt leaves a half-written file to which the next
attempt appends (`retry_appends_to_half_written`).
-/
namespace Fave.C29
open Fave.Log

/-- For every list of names for which removal succeeds: exactly the names with `.condensed` whose original is in the list are
removed, all the others are returned in their order, and there is no error. -/
theorem removes_exactly (names : List (List Char)) (removable : List Char → Bool)
    (h : ∀ n ∈ names, Superseded names n → removable n = true) :
    fixNames removable names = ⟨names.filter (fun n => decide (¬ Superseded names n)),
      names.filter (fun n => decide (Superseded names n)), false⟩ := by
  unfold fixNames
  rw [fixLoop_ok h]
  simp

/-- If a removal fails, an error is returned, and the files removed are those before it. -/
theorem stops_at_failure (done rest : List (List Char)) (x : List Char) (removable : List Char → Bool)
    (hx : Superseded (done ++ x :: rest) x) (hr : removable x = false)
    (h : ∀ n ∈ done, Superseded (done ++ x :: rest) n → removable n = true) :
    (fixNames removable (done ++ x :: rest)).failed = true ∧
    (fixNames removable (done ++ x :: rest)).removed = done.filter (fun n => decide (Superseded (done ++ x :: rest) n)) := by
  obtain ⟨o, ho⟩ := fixLoop_fail (rest := rest) h hx hr [] []
  unfold fixNames
  rw [ho]
  simp

/-- Whatever fails: a name that does not end in `.condensed`, or whose original is absent, is never removed. -/
theorem original_never_removed (names : List (List Char)) (removable : List Char → Bool) :
    ∀ n ∈ (fixNames removable names).removed, n ∈ names ∧ ∃ m ∈ names, n = m ++ ".condensed".toList := by
  have key : ∀ l kept gone, (∀ n ∈ l, n ∈ names) → (∀ n ∈ gone, n ∈ names ∧ Superseded names n) →
      ∀ n ∈ (fixLoop names removable kept gone l).removed, n ∈ names ∧ Superseded names n := by
    intro l
    induction l with
    | nil => intro kept gone _ hg; exact hg
    | cons x l ih =>
      intro kept gone hl hg
      by_cases hs : Superseded names x
      · rw [fixLoop_drop hs]
        by_cases hx : removable x = true
        · rw [if_pos hx]
          refine ih _ _ (fun n hn => hl n (by simp [hn])) fun n hn => ?_
          rcases List.mem_append.1 hn with hn | hn
          · exact hg n hn
          · simp only [List.mem_singleton] at hn; subst hn; exact ⟨hl n (by simp), hs⟩
        · rw [if_neg hx]; exact hg
      · rw [fixLoop_keep hs]
        exact ih _ _ (fun n hn => hl n (by simp [hn])) hg
  exact key names [] [] (fun _ h => h) (by simp)

/-- The directory model and the code on text agree: rendered as text, the names kept are the same. -/
theorem agrees_on_text (dir : List Char) (names : List FName) (hv : ∀ n ∈ names, n.visible = true) :
    (fixNames (fun _ => true) (names.map (FName.render dir))).out = (fix names).map (FName.render dir) := by
  rw [removes_exactly _ _ (fun _ _ _ => rfl)]
  unfold fix
  rw [List.filter_map]
  dsimp only
  congr 1
  refine List.filter_congr fun n hn => ?_
  have := render_superseded (dir := dir) hv hn
  simp only [Function.comp]
  by_cases h1 : n.kind = .condensed
  · by_cases h2 : n.base ∈ names
    · simp [this, h1, h2]
    · simp [this, h1, h2]
  · simp [this, h1]

theorem replaceable {d : Dir} (hc : d.Clean) {n : FName} (hn : n ∈ d.names) (hp : n.kind = .plain) :
    ∃ pre post, Replaceable d n pre post := by
  have : n ∈ d.listing := mem_listing.2 ⟨hn, by unfold FName.visible; rw [hp]; rfl⟩
  obtain ⟨pre, post, h⟩ := List.append_of_mem this
  exact ⟨pre, post, hc, h, hp⟩

/-- Condensing interrupted at any point: the next start replays either exactly the bytes from before, or — when the original has
been removed — the same bytes with the content of the original replaced by the complete condensed log. -/
theorem condense_interrupted_partial {d : Dir} (hc : d.Clean) {n : FName} (hn : n ∈ d.names) (hp : n.kind = .plain) {c : Bytes}
    {d' : Dir} (hcr : CondenseCrash d n c d') :
    d'.replayed = d.replayed ∨
    ∃ pre post, d.listing = pre ++ n :: post ∧ d'.listing = pre ++ n.cond :: post ∧
      d.replayed = (pre.map d.content).flatten ++ d.content n ++ (post.map d.content).flatten ∧
      d'.replayed = (pre.map d.content).flatten ++ c ++ (post.map d.content).flatten := by
  obtain ⟨pre, post, hx⟩ := replaceable hc hn hp
  cases hcr with
  | before => exact .inl rfl
  | writing k => exact .inl (hx.replayed_put _)
  | done =>
    refine .inr ⟨pre, post, hx.split, hx.listing_done _, ?_, ?_⟩
    · unfold Dir.replayed
      rw [fix_clean hc.listing_nodup, hx.split]; simp
    · rw [hx.replayed_done, if_neg hx.cond_new, List.nil_append]

theorem restoreFiles_append {maxLen : Nat} {st s1 : LogState} {a b : List Bytes} (h : restoreFiles maxLen st a = (s1, none)) :
    restoreFiles maxLen st (a ++ b) = restoreFiles maxLen s1 b := by
  induction a generalizing st with
  | nil => simp only [restoreFiles, Prod.mk.injEq, and_true] at h; rw [h]; rfl
  | cons f a ih =>
    simp only [restoreFiles, List.cons_append] at h ⊢
    split at h
    · exact ih h
    · exact ih h
    · exact ih h
    · simp at h

/-- files that hold whole operations are restored to the state these operations describe -/
theorem restoreFiles_holds {maxLen : Nat} (st : LogState) {l : List Bytes} {ops : List (List LogOp)} (hl : l = ops.map encodeAll)
    (hr : ∀ o ∈ ops, ∀ op ∈ o, op.InRange) (hf : ∀ o ∈ ops, ∀ op ∈ o, op.Fits maxLen) :
    ∃ s, restoreFiles maxLen st l = (s, none) ∧ s.view = semAll st.view ops.flatten := by
  subst hl
  induction ops generalizing st with
  | nil => exact ⟨st, rfl, rfl⟩
  | cons o ops ih =>
    obtain ⟨s1, n, h1, h2, -⟩ := C25.replay_reproduces_partial maxLen st o (hr o (by simp)) (hf o (by simp))
    obtain ⟨s2, h3, h4⟩ := ih s1 (fun x hx => hr x (by simp [hx])) (fun x hx => hf x (by simp [hx]))
    refine ⟨s2, ?_, ?_⟩
    · simp only [List.map_cons, restoreFiles, h1]; exact h3
    · rw [h4, h2, List.flatten_cons, semAll_append]

/-- Start-up after an interruption of condensing: for every set of logs that hold whole operations, of which one is being
condensed, and every point of interruption, the next start succeeds with the state that the logs describe — provided the
condensed operations do not take away anything stored by older logs (C27). -/
theorem condense_interrupted_recovers_partial {d : Dir} (hc : d.Clean) {n : FName} (hn : n ∈ d.names) (hp : n.kind = .plain)
    {maxLen : Nat} (hm : 56250 ≤ maxLen) {ops : FName → List LogOp} (ho : C28.Holds d maxLen ops)
    {pre post : List FName} (hsplit : d.listing = pre ++ n :: post)
    (hcond : Condensable (semAll View.empty (pre.flatMap ops)) (ops n)) (hl : ∀ i l, linkLens (ops n) i l ≤ 65535)
    {order : LogState → List Nat} (hord : ∀ s, (order s).Perm s.tombs) :
    ∃ c, condense maxLen order (d.content n) = .ok c ∧ ∀ d', CondenseCrash d n c d' →
      ∃ s, d'.restore maxLen = (s, none) ∧ s.view = semAll View.empty (d.listing.flatMap ops) := by
  have hx : Replaceable d n pre post := ⟨hc, hsplit, hp⟩
  have hmem : ∀ m ∈ pre ++ n :: post, m ∈ d.listing := fun m h => by rw [hsplit]; exact h
  have hmap : ∀ l : List FName, (∀ m ∈ l, m ∈ d.listing) → l.map d.content = (l.map ops).map encodeAll := by
    intro l hl'
    rw [List.map_map]
    exact List.map_congr_left fun m hm => ho.bytes m (hl' m hm)
  have hrest : ∀ (st : LogState) (l : List FName), (∀ m ∈ l, m ∈ d.listing) →
      ∃ s, restoreFiles maxLen st (l.map d.content) = (s, none) ∧ s.view = semAll st.view (l.flatMap ops) := by
    intro st l hl'
    have := restoreFiles_holds (maxLen := maxLen) st (hmap l hl')
      (fun o h => by obtain ⟨m, hm', rfl⟩ := List.mem_map.1 h; exact ho.range m (hl' m hm'))
      (fun o h => by obtain ⟨m, hm', rfl⟩ := List.mem_map.1 h; exact ho.fits m (hl' m hm'))
    rwa [← List.flatMap_def] at this
  have hnl := hmem n (by simp)
  obtain ⟨s1, h1, h2⟩ := hrest fresh pre fun m h => hmem m (by simp [h])
  rw [fresh_view] at h2
  rw [← h2] at hcond
  obtain ⟨c, s2, k, s3, h3, h4, h5, h6⟩ := C27.condense_preserves_partial hm s1 (ops n) (ho.range n hnl) (ho.fits n hnl) hcond hl
    order hord
  obtain ⟨s2', k', h4', h7, -⟩ := C25.replay_reproduces_partial maxLen s1 (ops n) (ho.range n hnl) (ho.fits n hnl)
  have h8 : s2.view = semAll s1.view (ops n) := by
    rw [h4] at h4'; cases h4'; exact h7
  refine ⟨c, by rw [ho.bytes n hnl]; exact h3, fun d' hcr => ?_⟩
  have horig : ∃ s, restoreFiles maxLen fresh (d.listing.map d.content) = (s, none) ∧
      s.view = semAll View.empty (d.listing.flatMap ops) := by
    have := hrest fresh d.listing fun _ h => h
    rwa [fresh_view] at this
  cases hcr with
  | before =>
    unfold Dir.restore
    rw [fix_clean hc.listing_nodup]
    exact horig
  | writing k =>
    unfold Dir.restore
    rw [hx.fix_put, hx.contents _ fun m h => by rw [← hx.split]; exact h]
    exact horig
  | done =>
    rw [if_neg hx.cond_new, List.nil_append]
    have hcnt : ((d.put n.cond c).erase n).content = (d.put n.cond c).content := rfl
    have hb : (d.put n.cond c).content n.cond = c := by
      show (if n.cond = n.cond then c else _) = _
      rw [if_pos rfl]
    unfold Dir.restore
    rw [hx.listing_done, fix_clean hx.nodup_done, hcnt, List.map_append, List.map_cons, hb,
      hx.contents c (l := pre) (fun m hm => by simp [hm]), hx.contents c (l := post) (fun m hm => by simp [hm])]
    obtain ⟨s4, h9, h10⟩ := hrest s3 post fun m h => hmem m (by simp [h])
    refine ⟨s4, ?_, ?_⟩
    · rw [restoreFiles_append h1]
      simp only [restoreFiles, h5]
      exact h9
    · rw [h10, h6, h8, h2, hsplit]
      simp only [List.flatMap_append, List.flatMap_cons, semAll_append]

/-! ## where the full statement fails -/

/-- a log and the log in use -/
def two : Dir :=
  ⟨[⟨10, .plain⟩, ⟨20, .plain⟩], fun n => if n.ts = 10 then encodeAll [.addNode 3 1, .addNode 3 1] else encodeAll [.addNode 4 0]⟩

/-- the complete condensed form of the first log -/
def twoCondensed : Bytes := encodeAll [.addNode 3 1, .addLinks 3 0 [], .addLinks 3 1 []]

/-- Stopped just before the original is removed: the condensed log is complete and clean-up removes it (the original stays). -/
theorem complete_condensed_removed :
    ∃ d', CondenseCrash two ⟨10, .plain⟩ twoCondensed d' ∧ d'.content ⟨10, .condensed⟩ = twoCondensed ∧
      (⟨10, .condensed⟩ : FName) ∈ d'.listing ∧ (⟨10, .condensed⟩ : FName) ∉ fix d'.listing ∧ d'.replayed = two.replayed := by
  refine ⟨_, .writing twoCondensed.length, ?_, ?_, ?_, ?_⟩ <;> decide

/-- the directory after a failed attempt that wrote five bytes -/
def half : Dir := two.put ⟨10, .condensed⟩ (twoCondensed.take 5)

/-- The attempt failed but the process kept running; the next attempt appends to the five bytes and then removes the original:
node 3 is lost. -/
theorem retry_appends_to_half_written :
    CondenseCrash two ⟨10, .plain⟩ twoCondensed half ∧
    ∃ d', CondenseCrash half ⟨10, .plain⟩ twoCondensed d' ∧
      (⟨10, .plain⟩ : FName) ∉ d'.names ∧
      (half.restore (2 ^ 45)).1.view.node 3 = some ⟨3, 1, [[], []]⟩ ∧
      (d'.restore (2 ^ 45)).1.view.node 3 = none := by
  refine ⟨.writing 5, _, .done, ?_, ?_, ?_⟩ <;> decide +kernel

/-! ## the hypotheses are met -/

/-- file names on disk -/
example : FName.render "d/".toList ⟨1700000000, .condensed⟩ = "d/1700000000.condensed".toList := by decide

example : fixNames (fun _ => true) ["d/10".toList, "d/10.condensed".toList, "d/20.condensed".toList, "d/30".toList] =
    ⟨["d/10".toList, "d/20.condensed".toList, "d/30".toList], ["d/10.condensed".toList], false⟩ := by decide

/-- a failing removal returns empty names -/
example : fixNames (fun n => n ≠ "d/10.condensed".toList) ["d/10".toList, "d/10.condensed".toList, "d/20".toList] =
    ⟨["d/10".toList, [], []], [], true⟩ := by decide

/-- two logs, the second of which is condensed on top of the first -/
def sampleDir : Dir :=
  ⟨[⟨30, .plain⟩, ⟨10, .condensed⟩, ⟨20, .plain⟩],
   fun n => if n.ts = 10 then encodeAll C25.sample else if n.ts = 20 then encodeAll C27.second else encodeAll [.addNode 9 0]⟩

example : sampleDir.Clean ∧ sampleDir.listing = [⟨10, .condensed⟩] ++ ⟨20, .plain⟩ :: [⟨30, .plain⟩] := by
  refine ⟨⟨by decide, by decide⟩, by decide⟩

example : ∃ ops : FName → List LogOp, C28.Holds sampleDir (2 ^ 45) ops ∧
    Condensable (semAll View.empty ([(⟨10, .condensed⟩ : FName)].flatMap ops)) (ops ⟨20, .plain⟩) ∧
    ∀ i l, linkLens (ops ⟨20, .plain⟩) i l ≤ 65535 := by
  refine ⟨fun n => if n.ts = 10 then C25.sample else if n.ts = 20 then C27.second else [.addNode 9 0], ⟨?_, ?_, ?_⟩, ?_, ?_⟩
  · intro n _; simp only [sampleDir]; repeat' split
    all_goals rfl
  · intro n _; repeat' split
    all_goals simp [C25.sample, C27.second, LogOp.InRange]
  · intro n _; repeat' split
    all_goals simp [C25.sample, C27.second, LogOp.Fits]
  · simpa using C27.second_condensable
  · intro i l
    simp only [Nat.reduceEqDiff, if_false, if_true, linkLens, C27.second, List.foldl, LogOp.linkLens]
    repeat' split
    all_goals simp

end Fave.C29
