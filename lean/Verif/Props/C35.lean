import Verif.Lemmas.Config
/-!
# C35: immutable index settings

Full claim: *a configuration update that changes construction width, maximum connections, clean-up interval or distance function is refused,
every other update is accepted, and an accepted update changes only the mutable settings.*

The first half holds without the distance function (`immutable_change_refused_partial`, `distance_change_accepted`), and only for
configurations of the Weaviate type; the configurations this repository produces itself are refused whatever they say
(`own_config_refused`).  What an update does to the index is `update_effect`: the immutable settings and the distance never change.  But
applying an update does not check the immutable settings itself (`update_does_not_check`), and an update that is refused because of its
quantisation settings has already changed the others (`refused_update_changes_settings`).
-/
namespace Fave.C35
open Config
open Client (Str)

/-- **C35** (partial: without the distance): an update that changes construction width, maximum connections or clean-up interval is refused. -/
theorem immutable_change_refused_partial (a b : UC) (h : a.efC ≠ b.efC ∨ a.maxConn ≠ b.maxConn ∨ a.cleanup ≠ b.cleanup) :
    validateUpdate (.ent a) (.ent b) = false := by
  cases hv : validateUpdate (.ent a) (.ent b) with
  | false => rfl
  | true =>
    simp only [validateUpdate, Bool.and_eq_true, decide_eq_true_eq] at hv
    rcases h with h | h | h
    · exact absurd hv.1.1 h
    · exact absurd hv.1.2 h
    · exact absurd hv.2 h

/-- **C35**: every update that keeps the three settings is accepted, whatever else it changes. -/
theorem other_change_accepted (a b : UC) (h1 : a.efC = b.efC) (h2 : a.maxConn = b.maxConn) (h3 : a.cleanup = b.cleanup) :
    validateUpdate (.ent a) (.ent b) = true := by
  simp [validateUpdate, h1, h2, h3]

/-- **C35 fails**: from any configuration the distance function can be changed to any other. -/
theorem distance_change_accepted (a : UC) (d : Str) : validateUpdate (.ent a) (.ent { a with distance := d }) = true := by
  simp [validateUpdate]

/-- **C35 fails**: the configurations that `ParseAndValidateConfig` of this repository returns are refused, even unchanged, and applying one
fails without effect. -/
theorem own_config_refused (a : UC) (x : Cfg) (l : Live) :
    validateUpdate (.own a) x = false ∧ validateUpdate x (.own a) = false ∧
    (update l (.own a)).failed = true ∧ (update l (.own a)).live = l ∧
    (update l (.own a)).compressing = false ∧ (update l (.own a)).callbacks = 1 := by
  refine ⟨rfl, ?_, rfl, rfl, rfl, rfl⟩
  cases x <;> rfl

/-- **C35**: what an update does.  Construction width, connections, clean-up interval, distance and compression state never change; the six
mutable settings take the values of the update, the cache size that of the cache in use. -/
theorem update_effect (l : Live) (c : UC) :
    let u := (update l (.ent c)).live
    (u.efC = l.efC ∧ u.maxConn = l.maxConn ∧ u.cleanup = l.cleanup ∧ u.distance = l.distance ∧ u.compressed = l.compressed) ∧
    (u.ef = c.ef ∧ u.efMin = c.efMin ∧ u.efMax = c.efMax ∧ u.efFactor = c.efFactor ∧ u.cutoff = c.cutoff) ∧
    (l.compressed = false → u.cacheMax = c.cacheMax ∧ u.compressedMax = l.compressedMax) ∧
    (l.compressed = true → u.cacheMax = l.cacheMax ∧ u.compressedMax = c.cacheMax) := by
  have h : (update l (.ent c)).live =
      { l with ef := c.ef, efMin := c.efMin, efMax := c.efMax, efFactor := c.efFactor, cutoff := c.cutoff,
               cacheMax := if l.compressed then l.cacheMax else c.cacheMax,
               compressedMax := if l.compressed then c.cacheMax else l.compressedMax } := by
    simp only [update]
    split
    · split
      · rfl
      · split <;> rfl
    · rfl
  rw [h]
  refine ⟨⟨rfl, rfl, rfl, rfl, rfl⟩, ⟨rfl, rfl, rfl, rfl, rfl⟩, fun hc => ?_, fun hc => ?_⟩ <;> simp [hc]

/-- the encoders and distributions that exist -/
def knownEncoder (s : Str) : Prop := s = "tile".toList ∨ s = "kmeans".toList
def knownDistribution (s : Str) : Prop := s = "log-normal".toList ∨ s = "normal".toList

theorem validEncoder_iff (s : Str) : validEncoder s = true ↔ knownEncoder s := by
  unfold validEncoder knownEncoder sTile sKmeans
  rw [Bool.or_eq_true, decide_eq_true_eq, decide_eq_true_eq]

theorem validDistribution_iff (s : Str) : validDistribution s = true ↔ knownDistribution s := by
  unfold validDistribution knownDistribution sLogNormal sNormal
  rw [Bool.or_eq_true, decide_eq_true_eq, decide_eq_true_eq]

/-- **C35**: applying an update fails exactly if it switches quantisation on with an unknown encoder or distribution (or has the wrong type:
`own_config_refused`); it starts the compression exactly if it switches it on with known ones; the callback has been called once when it
returns. -/
theorem update_outcome (l : Live) (c : UC) :
    ((update l (.ent c)).failed = true ↔ l.compressed = false ∧ c.pq.enabled = true ∧
      ¬ (knownEncoder c.pq.encoder ∧ knownDistribution c.pq.distribution)) ∧
    ((update l (.ent c)).compressing = true ↔ l.compressed = false ∧ c.pq.enabled = true ∧
      knownEncoder c.pq.encoder ∧ knownDistribution c.pq.distribution) ∧
    (update l (.ent c)).callbacks = 1 := by
  rw [← validEncoder_iff, ← validDistribution_iff]
  unfold update
  cases hc : l.compressed <;> cases hp : c.pq.enabled <;> cases he : validEncoder c.pq.encoder <;>
    cases hd : validDistribution c.pq.distribution <;> simp [hp, he, hd]

/-- **C35 fails**: applying an update does not check the immutable settings: whatever it says about them, without new quantisation it reports
success (and ignores them, `update_effect`). -/
theorem update_does_not_check (l : Live) (c : UC) (h : c.pq.enabled = false) : (update l (.ent c)).failed = false := by
  cases hf : (update l (.ent c)).failed with
  | false => rfl
  | true => rw [((update_outcome l c).1.mp hf).2.1] at h; exact absurd h (by decide)

/-! ## the hypotheses are met, and the failures happen -/

/-- a running index with the default settings -/
def running : Live :=
  { ef := -1, efMin := 100, efMax := 500, efFactor := 8, cutoff := 40000, cacheMax := 10 ^ 12, compressedMax := 0, compressed := false,
    efC := 128, maxConn := 64, cleanup := 300, distance := "cosine".toList }

/-- an update with an encoder that does not exist -/
def badUpdate : UC := { UC.default with ef := 7, pq := { PQ.default with enabled := true, encoder := "x".toList } }

/-- **C35 fails**: this update passes the check of the immutable settings, is refused when it is applied, and has changed the width all the
same. -/
theorem refused_update_changes_settings :
    validateUpdate (.ent UC.default) (.ent badUpdate) = true ∧ (update running (.ent badUpdate)).failed = true ∧
    running.ef = -1 ∧ (update running (.ent badUpdate)).live.ef = 7 := by
  decide +kernel

example : validateUpdate (.ent UC.default) (.ent { UC.default with efC := 64 }) = false :=
  immutable_change_refused_partial _ _ (.inl (by decide))
example : validateUpdate (.ent UC.default) (.ent { UC.default with maxConn := 32 }) = false :=
  immutable_change_refused_partial _ _ (.inr (.inl (by decide)))
example : validateUpdate (.ent UC.default) (.ent { UC.default with ef := 32, cutoff := 5 }) = true :=
  other_change_accepted _ _ rfl rfl rfl
example : validateUpdate (.ent UC.default) (.ent { UC.default with distance := "dot".toList }) = true :=
  distance_change_accepted _ _
example : (update running (.ent { UC.default with efC := 64, ef := 9 })).failed = false ∧
    (update running (.ent { UC.default with efC := 64, ef := 9 })).live = { running with ef := 9 } := by decide +kernel

end Fave.C35
