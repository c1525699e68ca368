import Verif.Lemmas.Lru
/-!
# C13 — no stored vector is lost to the node cache

The full statement — *a vector whose addition reported success is written by the next successful flush, whatever number of vectors was added
before and whatever was read in between* — is false: the cache has room for 10000 nodes and drops the least recently used one without
writing it (`batch_beyond_capacity_loses`, for every capacity and every order of reads and writes).  Proved is exactly when nothing is lost.
-/
namespace Fave.C13
open Lru
variable {α : Type}

/-- **A recently used node is stored.**  After a node was last written, at most `cap - 1` other nodes were read or written (`T` lists them) before
the flush: then the flush leaves exactly this node in the table.  Nothing is assumed of what happened before. -/
theorem recently_used_is_stored_partial (cap : Nat) (kv : Tab α) (pre post : List (Op α)) (k : Nat) (a : α) (T : List Nat) (hT : T.length < cap)
    (hread : ∀ j, .read j ∈ post → j = k ∨ j ∈ T) (hwrite : ∀ j b, .write j b ∈ post → j ∈ T) (hk : k ∉ T) :
    (run cap ⟨[], kv⟩ (pre ++ .write k a :: post ++ [.flush])).kv.get k = some a := by
  have h0 : Ok cap (⟨[], kv⟩ : Store α) := ⟨List.nodup_nil, Nat.zero_le _⟩
  have h1 := ok_run h0 pre
  have h2 : Ok cap (step cap (run cap ⟨[], kv⟩ pre) (.write k a)) := ok_step h1 _
  have h3 : Holds k a T (step cap (run cap ⟨[], kv⟩ pre) (.write k a)) := holds_push_self (by omega) k a false T nofun
  have h4 := holds_run h2 hT h3 post (by
    intro o ho j hj
    cases o with
    | read i => cases hj; exact hread j ho
    | write i b => cases hj; exact .inr (hwrite j b ho)
    | flush => cases hj) (fun b hb => absurd (hwrite k b hb) hk)
  have h5 := holds_flush (ok_run h2 post) h4
  have e : run cap ⟨[], kv⟩ (pre ++ .write k a :: post ++ [.flush]) =
      flush cap (run cap (step cap (run cap ⟨[], kv⟩ pre) (.write k a)) post) := by
    unfold run
    rw [List.foldl_append, List.foldl_append]
    rfl
  rw [e]
  exact h5

/-- the value written last, if any -/
def latest (ops : List (Op α)) (k : Nat) : Option α :=
  ops.foldl (fun r o => match o with
    | .write j a => if j = k then some a else r
    | _ => r) none

theorem latest_append (ops : List (Op α)) (o : Op α) (k : Nat) :
    latest (ops ++ [o]) k = match o with
      | .write j a => if j = k then some a else latest ops k
      | _ => latest ops k := by
  unfold latest
  rw [List.foldl_append]
  rfl

/-- everything used fits: the invariant -/
theorem fits_inv (cap : Nat) (kv : Tab α) (U : List Nat) (hU : U.length ≤ cap) (ops : List (Op α))
    (h : ∀ o ∈ ops, ∀ j, o.key = some j → j ∈ U) :
    let s := run cap ⟨[], kv⟩ ops
    Ok cap s ∧ (∀ k ∈ ckeys s, k ∈ U) ∧ Sync s ∧ ∀ k, view s k = (latest ops k).or (kv.get k) := by
  induction hn : ops.length generalizing ops with
  | zero =>
    obtain rfl : ops = [] := List.eq_nil_of_length_eq_zero hn
    exact ⟨⟨List.nodup_nil, Nat.zero_le _⟩, nofun, nofun, fun k => rfl⟩
  | succ n ih =>
    obtain ⟨ops, o, rfl⟩ : ∃ p' e, ops = p' ++ [e] := by
      rcases List.eq_nil_or_concat ops with rfl | ⟨p', e, h⟩
      · simp at hn
      · exact ⟨p', e, by simpa using h⟩
    obtain ⟨h1, h2, h3, h4⟩ := ih ops (fun o ho => h o (by simp [ho])) (by simpa using hn)
    have hrun : run cap ⟨[], kv⟩ (ops ++ [o]) = step cap (run cap ⟨[], kv⟩ ops) o := by unfold run; rw [List.foldl_append]; rfl
    generalize run cap ⟨[], kv⟩ ops = s at h1 h2 h3 h4 hrun
    simp only [hrun]
    -- an entry is pushed
    have hpush : ∀ e : Ent α, e.key ∈ U → (e.committed = true → s.kv.get e.key = some e.val) →
        Ok cap (push cap s e) ∧ (∀ k ∈ ckeys (push cap s e), k ∈ U) ∧ Sync (push cap s e) ∧
        ∀ k, view (push cap s e) k = if k = e.key then some e.val else view s k := by
      intro e he hc
      obtain ⟨p1, p2⟩ := push_fits hU h1.nodup h2 he
      refine ⟨ok_push h1.nodup e, p2, ?_, view_push p1⟩
      intro x hx hxc
      rw [p1] at hx
      rcases List.mem_cons.mp hx with rfl | hx
      · exact hc hxc
      · exact h3 x (List.mem_filter.mp hx).1 hxc
    cases o with
    | read j =>
      have hj : j ∈ U := h (.read j) (by simp) j rfl
      show Ok cap (Lru.read cap s j).1 ∧ (∀ k ∈ ckeys (Lru.read cap s j).1, k ∈ U) ∧ Sync (Lru.read cap s j).1 ∧
        ∀ k, view (Lru.read cap s j).1 k = _
      simp only [latest_append]
      unfold Lru.read
      split
      · rename_i e he
        obtain ⟨hm, hk⟩ := lookup_some he
        obtain ⟨q1, q2, q3, q4⟩ := hpush e (by rw [hk]; exact hj) (h3 e hm)
        refine ⟨q1, q2, q3, fun k => ?_⟩
        rw [q4, ← h4 k]
        split
        · rename_i hkk
          subst hkk
          unfold view
          rw [hk, he]
        · rfl
      · rename_i he
        split
        · exact ⟨h1, h2, h3, h4⟩
        · rename_i a ha
          obtain ⟨q1, q2, q3, q4⟩ := hpush ⟨j, a, false⟩ hj nofun
          refine ⟨q1, q2, q3, fun k => ?_⟩
          rw [q4, ← h4 k]
          split
          · rename_i hkk
            have hkk : k = j := hkk
            subst hkk
            unfold view
            rw [he]
            exact ha.symm
          · rfl
    | write j a =>
      have hj : j ∈ U := h (.write j a) (by simp) j rfl
      obtain ⟨q1, q2, q3, q4⟩ := hpush ⟨j, a, false⟩ hj nofun
      refine ⟨q1, q2, q3, fun k => ?_⟩
      show view (push cap s ⟨j, a, false⟩) k = _
      rw [q4, latest_append]
      simp only
      by_cases hk : k = j
      · rw [if_pos hk, if_pos hk.symm]; rfl
      · rw [if_neg hk, if_neg (fun e => hk e.symm), h4 k]
    | flush =>
      have hf := flush_eq h1
      show Ok cap (flush cap s) ∧ (∀ k ∈ ckeys (flush cap s), k ∈ U) ∧ Sync (flush cap s) ∧ ∀ k, view (flush cap s) k = _
      simp only [latest_append]
      have hkeys : ckeys (flush cap s) = ckeys s := by
        rw [hf]; unfold ckeys; rw [List.map_map]; rfl
      refine ⟨ok_flush h1, by rw [hkeys]; exact h2, ?_, ?_⟩
      · rw [hf]
        intro e he _
        obtain ⟨x, hx, rfl⟩ := List.mem_map.mp he
        show (written s.ents s.kv).get x.key = some x.val
        rw [(written_get s.ents s.kv h1.nodup x.key).2 x hx rfl]
        split
        · rename_i hc; exact h3 x hx hc
        · rfl
      · intro k
        rw [← h4 k]
        cases hl : lookup s k with
        | some e =>
          obtain ⟨hm, hk⟩ := lookup_some hl
          have hl2 : lookup (flush cap s) k = some (done e) := by
            rw [hf]
            unfold lookup at hl ⊢
            simp only
            rw [List.find?_map]
            have : ((fun x : Ent α => decide (x.key = k)) ∘ done) = fun x => decide (x.key = k) := rfl
            rw [this, hl]
            rfl
          unfold view
          rw [hl, hl2]
          rfl
        | none =>
          have hn : k ∉ ckeys s := lookup_none hl
          have hl2 : lookup (flush cap s) k = none := by
            cases hc : lookup (flush cap s) k with
            | none => rfl
            | some e =>
              obtain ⟨hm, hk⟩ := lookup_some hc
              exact absurd (hkeys ▸ (hk ▸ List.mem_map_of_mem hm : k ∈ ckeys (flush cap s))) hn
          unfold view
          rw [hl, hl2, hf]
          exact (written_get s.ents s.kv h1.nodup k).1 hn

/-- **If all nodes used fit into the cache, nothing is lost**: a process starts with an empty cache over a table; as long as the numbers
it reads and writes are among `U`, at most `cap` many, every look-up delivers what was written last (or stored before), and after a
flush the table holds exactly that.  This justifies the model of additions, which has no eviction. -/
theorem nothing_lost_if_fits (cap : Nat) (kv : Tab α) (U : List Nat) (hU : U.length ≤ cap) (ops : List (Op α))
    (h : ∀ j, .read j ∈ ops → j ∈ U) (hw : ∀ j a, .write j a ∈ ops → j ∈ U) (k : Nat) :
    (Lru.read cap (run cap ⟨[], kv⟩ ops) k).2 = (latest ops k).or (kv.get k) ∧
    (run cap ⟨[], kv⟩ (ops ++ [.flush])).kv.get k = (latest ops k).or (kv.get k) := by
  have hops : ∀ o ∈ ops, ∀ j, o.key = some j → j ∈ U := by
    intro o ho j hj
    cases o with
    | read i => cases hj; exact h j ho
    | write i b => cases hj; exact hw j b ho
    | flush => cases hj
  obtain ⟨h1, h2, h3, h4⟩ := fits_inv cap kv U hU ops hops
  have hrun : run cap ⟨[], kv⟩ (ops ++ [.flush]) = flush cap (run cap ⟨[], kv⟩ ops) := by unfold run; rw [List.foldl_append]; rfl
  rw [hrun, ← h4 k]
  generalize run cap ⟨[], kv⟩ ops = s at h1 h3
  constructor
  · unfold Lru.read view
    cases lookup s k with
    | some e => rfl
    | none =>
      show (match s.kv.get k with
        | none => (s, none)
        | some a => (push cap s ⟨k, a, false⟩, some a)).2 = s.kv.get k
      cases s.kv.get k <;> rfl
  · rw [flush_eq h1]
    show (written s.ents s.kv).get k = view s k
    unfold view
    split
    · rename_i e he
      obtain ⟨hm, hk⟩ := lookup_some he
      rw [(written_get s.ents s.kv h1.nodup k).2 e hm hk]
      split
      · rename_i hc; rw [← hk]; exact h3 e hm hc
      · rfl
    · rename_i hl
      exact (written_get s.ents s.kv h1.nodup k).1 (lookup_none hl)

/-- **A batch of more new vectors than the cache holds always loses some**, whatever else is read and written in between and in
whatever order: of `ids`, more than `cap` distinct numbers none of which is stored, all written since the last flush, at least one
is missing from the table after the flush. -/
theorem batch_beyond_capacity_loses (cap : Nat) (kv : Tab α) (before batch : List (Op α)) (hb : .flush ∉ batch) (ids : List Nat) (hnd : ids.Nodup)
    (hlen : cap < ids.length) (hnew : ∀ k ∈ ids, (run cap ⟨[], kv⟩ before).kv.get k = none) :
    ∃ k ∈ ids, (run cap ⟨[], kv⟩ (before ++ batch ++ [.flush])).kv.get k = none := by
  have h0 : Ok cap (⟨[], kv⟩ : Store α) := ⟨List.nodup_nil, Nat.zero_le _⟩
  have h1 := ok_run h0 before
  have hrun : run cap ⟨[], kv⟩ (before ++ batch ++ [.flush]) = flush cap (run cap (run cap ⟨[], kv⟩ before) batch) := by
    unfold run; rw [List.foldl_append, List.foldl_append]; rfl
  rw [hrun]
  generalize run cap ⟨[], kv⟩ before = s at h1 hnew
  have h2 := ok_run h1 batch
  have hkv := run_kv_same (cap := cap) batch s hb
  apply Classical.byContradiction
  intro hall
  have hsub : ∀ k ∈ ids, k ∈ ckeys (run cap s batch) := by
    intro k hk
    cases hg : (flush cap (run cap s batch)).kv.get k with
    | none => exact absurd ⟨k, hk, hg⟩ hall
    | some a =>
      rcases flush_stored h2 hg with h | h
      · exact h
      · rw [hkv, hnew k hk] at h; cases h
  have := hnd.length_le_of_subset hsub
  have hs := h2.size
  unfold ckeys at this
  rw [List.length_map] at this
  omega

/-- the capacity FaVe uses — pkg/hnsw/index.go:217 -/
def faveCap : Nat := 10000

/-- With FaVe's capacity: up to 10000 vectors (numbers below 10000) nothing is lost; of any 10001 vectors added to a new collection between two flushes
at least one is lost. -/
theorem fave_bound (kv : Tab α) (ops : List (Op α)) :
    ((∀ j, .read j ∈ ops → j < 10000) → (∀ j a, .write j a ∈ ops → j < 10000) →
      ∀ k, (run faveCap ⟨[], kv⟩ (ops ++ [.flush])).kv.get k = (latest ops k).or (kv.get k)) ∧
    (.flush ∉ ops → (∀ k < 10001, kv.get k = none) → ∃ k < 10001, (run faveCap ⟨[], kv⟩ (ops ++ [.flush])).kv.get k = none) := by
  constructor
  · intro h1 h2 k
    exact (nothing_lost_if_fits faveCap kv (List.range 10000) (by rw [List.length_range]; exact Nat.le_refl _) ops
      (fun j hj => List.mem_range.mpr (h1 j hj)) (fun j a hj => List.mem_range.mpr (h2 j a hj)) k).2
  · intro hf hn
    obtain ⟨k, hk, h⟩ := batch_beyond_capacity_loses faveCap kv [] ops hf (List.range 10001) List.nodup_range
      (by rw [List.length_range]; exact Nat.lt_succ_self _) (fun k hk => hn k (List.mem_range.mp hk))
    exact ⟨k, List.mem_range.mp hk, by simpa using h⟩

/-! ## Examples -/

-- capacity 3, numbers 0-3: number 0 is used again before number 3 comes, so number 1 is dropped
example : (run 3 ⟨[], []⟩ [.write 0 "a", .write 1 "b", .write 2 "c", .read 0, .write 3 "d", .flush]).kv = [(2, "c"), (0, "a"), (3, "d")] := by
  decide +kernel
-- the hypotheses of `recently_used_is_stored_partial`: after writing 0 only 1 and 2 are used
example : (run 3 ⟨[], []⟩ ([.write 5 "x", .write 6 "y"] ++ .write 0 "a" :: [.write 1 "b", .read 2, .write 1 "c"] ++ [.flush])).kv.get 0 = some "a" :=
  recently_used_is_stored_partial 3 [] _ _ 0 "a" [1, 2] (by decide) (by simp) (by simp; omega) (by simp)
/-- **A change of a stored node is lost as well** when the node is dropped before the flush: the old content is read again. -/
theorem change_lost : let s := run 2 ⟨[], [(0, "old")]⟩ [.read 0, .write 0 "new", .write 1 "b", .write 2 "c"]
    (Lru.read 2 s 0).2 = some "old" ∧ (run 2 s [.flush]).kv.get 0 = some "old" := by decide +kernel
example : ∃ k ∈ [0, 1, 2, 3], (run 3 ⟨[], []⟩ ([] ++ [.write 0 "a", .write 1 "b", .write 2 "c", .read 0, .write 3 "d"] ++ [.flush])).kv.get k = none :=
  batch_beyond_capacity_loses 3 [] [] _ (by decide) [0, 1, 2, 3] (by decide) (by decide) (fun _ _ => rfl)

end Fave.C13
