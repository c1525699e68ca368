import Verif.Lemmas.RacesWitness
/-!
# C76: data races

Two goroutines that use the same memory, one of them to write, with nothing that orders the two. The full claim, "no call of the client or of
the index races with another", is false; the table `racy` says about which field which two calls race, and it is exact: nothing else races, in any
number of goroutines and any schedule, and each entry of the table happens.
-/
namespace Fave.C76
open Fave.Locks

/-- whatever calls run and however they are scheduled, a race is one of the table, and is between two calls for the same collection unless it
is for the session or the pod -/
theorem only_these_partial (calls : List (Op × Nat × List Nat)) (is : List Nat) (s : List Thread) (hr : run (begin calls) is = some s)
    (i j : Nat) (c : Cell) (h : Race s i j c) : ∃ a b, calls[i]? = some a ∧ calls[j]? = some b ∧ racy c.field a.1 b.1 = true ∧
      (c.field ∉ [Field.session, .pod] → a.2.1 = b.2.1) := by
  obtain ⟨a, b, ha, hb, u, hu, v, hv, hf, hc⟩ := race_clash hr h
  have ht : racy c.field a.1 b.1 = true := hf ▸ clash_racy hu hv hc
  refine ⟨a, b, ha, hb, ht, fun hp => ?_⟩
  replace hp : c.field.ofProcess = false := by
    cases e : c.field <;> simp_all [Field.ofProcess, racy, table]
  obtain ⟨-, w, w', h1, h2, -⟩ := h
  have e1 := uses_mine hr h1 ha
  have e2 := uses_mine hr h2 hb
  simp only [hp] at e1 e2
  simpa using e1.symm.trans e2

/-- each entry of the table happens, already with two goroutines -/
theorem each_happens (f : Field) (a b : Op) (h : racy f a b = true) : ∃ calls is s i j c, run (begin calls) is = some s ∧ Race s i j c ∧
    c.field = f ∧ (calls[i]?).map (·.1) = some a ∧ (calls[j]?).map (·.1) = some b := by
  obtain ⟨x, y, is, s, c, ⟨hr, hf, hrace⟩ | ⟨hr, hf, hrace⟩⟩ := racy_race h (Or.inl rfl)
  · exact ⟨callsOf 1 a b x y, is, s, 0, 1, c, hr, hrace, hf, rfl, rfl⟩
  · exact ⟨callsOf 1 b a x y, is, s, 1, 0, c, hr, race_symm hrace, hf, rfl, rfl⟩

/-- those for the session and the pod happen between calls for different collections as well: there is one of each for the whole process -/
theorem across_collections (f : Field) (hf : f ∈ [Field.session, .pod]) (a b : Op) (h : racy f a b = true) : ∃ calls is s i j c o o' x y,
    run (begin calls) is = some s ∧ Race s i j c ∧ c.field = f ∧ calls[i]? = some (a, o, x) ∧ calls[j]? = some (b, o', y) ∧ o ≠ o' := by
  obtain ⟨x, y, is, s, c, ⟨hr, hf, hrace⟩ | ⟨hr, hf, hrace⟩⟩ := racy_race h (Or.inr ⟨rfl, hf⟩)
  · exact ⟨callsOf 2 a b x y, is, s, 0, 1, c, 1, 2, x, y, hr, hrace, hf, rfl, rfl, by decide⟩
  · exact ⟨callsOf 2 b a x y, is, s, 1, 0, c, 2, 1, y, x, hr, race_symm hrace, hf, rfl, rfl, by decide⟩

/-- the table is exact -/
theorem exactly_these (f : Field) (a b : Op) : racy f a b = true ↔ ∃ calls is s i j c, run (begin calls) is = some s ∧ Race s i j c ∧
    c.field = f ∧ (calls[i]?).map (·.1) = some a ∧ (calls[j]?).map (·.1) = some b := by
  refine ⟨each_happens f a b, fun ⟨calls, is, s, i, j, c, hr, hrace, hf, ha, hb⟩ => ?_⟩
  obtain ⟨a', b', ha', hb', h, -⟩ := only_these_partial calls is s hr i j c hrace
  rw [ha', Option.map_some, Option.some.injEq] at ha
  rw [hb', Option.map_some, Option.some.injEq] at hb
  rwa [ha, hb, hf] at h

/-- the table of the indices, the tombstones, the context that a reset cancels, the pool of visited lists and the file of the commit log are
never raced for: their locks protect them -/
theorem guarded (calls : List (Op × Nat × List Nat)) (is : List Nat) (s : List Thread) (hr : run (begin calls) is = some s) (i j : Nat)
    (c : Cell) (hc : c.field ∈ [Field.indices, .tombs, .resetCtx, .lists, .file]) : ¬ Race s i j c := by
  intro h
  obtain ⟨a, b, -, -, ht, -⟩ := only_these_partial calls is s hr i j c h
  simp only [List.mem_cons, List.not_mem_nil, or_false] at hc
  rcases hc with e | e | e | e | e <;> rw [e] at ht <;> simp [racy, table] at ht

/-- creating and dropping collections, reading documents and every way to search that does not first load the entry point: no races among them -/
theorem readers_partial (calls : List (Op × Nat × List Nat)) (hq : ∀ x ∈ calls, x.1 ∈ [Op.collections, .create, .drop, .getDocument, .search,
      .searchDist, .maxDist]) (is : List Nat) (s : List Thread) (hr : run (begin calls) is = some s) (i j : Nat) (c : Cell) :
    ¬ Race s i j c := by
  intro h
  obtain ⟨a, b, ha, hb, ht, -⟩ := only_these_partial calls is s hr i j c h
  have h1 := hq a (List.mem_of_getElem? ha)
  have h2 := hq b (List.mem_of_getElem? hb)
  generalize a.1 = x at h1 ht
  generalize b.1 = y at h2 ht
  generalize c.field = f at ht
  have := List.all_eq_true.mp (List.all_eq_true.mp (List.all_eq_true.mp (show (Field.all.all fun f => [Op.collections, .create, .drop,
    .getDocument, .search, .searchDist, .maxDist].all fun x => [Op.collections, .create, .drop, .getDocument, .search, .searchDist,
    .maxDist].all fun y => !racy f x y) = true by decide +kernel) f f.mem_all) x h1) y h2
  rw [ht] at this
  exact absurd this (by decide)

/-- once the user has logged in and opened the pod, calls for different collections do not race -/
theorem apart_partial (calls : List (Op × Nat × List Nat)) (ho : ∀ x ∈ calls, x.1 ≠ .login ∧ x.1 ≠ .openPod)
    (hd : calls.Pairwise fun x y => x.2.1 ≠ y.2.1) (is : List Nat) (s : List Thread) (hr : run (begin calls) is = some s) (i j : Nat)
    (c : Cell) : ¬ Race s i j c := by
  intro h
  have hne := h.1
  obtain ⟨a, b, ha, hb, ht, hsame⟩ := only_these_partial calls is s hr i j c h
  by_cases hp : c.field ∈ [Field.session, .pod]
  · have h1 := ho a (List.mem_of_getElem? ha)
    have h2 := ho b (List.mem_of_getElem? hb)
    generalize a.1 = x at h1 ht
    generalize b.1 = y at h2 ht
    generalize c.field = f at ht hp
    have := List.all_eq_true.mp (List.all_eq_true.mp (List.all_eq_true.mp (show (Field.all.all fun f => Op.all.all fun x => Op.all.all fun y =>
      !(f ∈ [Field.session, .pod]) || !racy f x y || x == .login || x == .openPod || y == .login || y == .openPod) = true by decide +kernel) f f.mem_all)
      x x.mem_all) y y.mem_all
    simp only [List.mem_cons, List.not_mem_nil, or_false] at hp
    simp [hp, ht, h1, h2] at this
  · have e := hsame hp
    obtain ⟨hi, rfl⟩ := List.getElem?_eq_some_iff.mp ha
    obtain ⟨hj, rfl⟩ := List.getElem?_eq_some_iff.mp hb
    rw [List.pairwise_iff_getElem] at hd
    rcases Nat.lt_or_gt_of_ne hne with hlt | hlt
    · exact hd i j hi hj hlt e
    · exact hd j i hj hi hlt e.symm

/-- the full claim is false: two requests for the documents near a text, in the same collection, race for the entry point, which each of them
writes with the lock of the index held for reading — insert.go:181-199 -/
theorem full_claim_false : ¬ ∀ (calls : List (Op × Nat × List Nat)) (is : List Nat) (s : List Thread), run (begin calls) is = some s →
    ∀ i j c, ¬ Race s i j c := by
  intro h
  obtain ⟨calls, is, s, i, j, c, hr, hrace, -⟩ := each_happens .entry .near .near (by decide +kernel)
  exact h calls is s hr i j c hrace

/-- the two requests of `full_claim_false`, step by step: both have the lock of the index, for reading, and both are about to write -/
example : (reached (begin [(.near, 1, [1, 0, 1]), (.near, 1, [1, 0, 1])]) (List.replicate 8 1 ++ List.replicate 8 0)).map
      (fun t => (t.held, t.todo.head?)) =
    [([(lockOf 1 .graph 0, false)], some (.acc (cellOf 1 .entry 0) true)), ([(lockOf 1 .graph 0, false)], some (.acc (cellOf 1 .entry 0) true))] := by
  decide +kernel

/-- a search beside an insertion that moves the entry point, and `Flush` beside another insertion -/
example : racy .entry .search .add = true ∧ racy .edges .flush .add = true ∧ racy .once .add .cleanUp = true ∧ racy .slot .add .add = true := by
  decide +kernel

/-- the hypotheses of `readers_partial` -/
example : ∀ x ∈ [(Op.search, 1, [0]), (Op.maxDist, 1, []), (Op.drop, 1, [1, 1])],
    x.1 ∈ [Op.collections, .create, .drop, .getDocument, .search, .searchDist, .maxDist] := by decide

/-- the hypotheses of `apart_partial`: two `AddDocuments` for two collections, both in the middle of an insertion; for one collection they race -/
example : [(Op.addDocuments, 1, [1, 0, 0, 1, 1, 1, 0, 1, 0, 1]), (Op.addDocuments, 2, [1, 0, 0, 1, 1, 1, 0, 1, 0, 1])].Pairwise
      (fun x y => x.2.1 ≠ y.2.1) ∧
    (reached (begin [(Op.addDocuments, 1, [1, 0, 0, 1, 1, 1, 0, 1, 0, 1]), (Op.addDocuments, 2, [1, 0, 0, 1, 1, 1, 0, 1, 0, 1])])
      (List.replicate 16 0 ++ List.replicate 16 1)).map (·.todo.head?) =
        [some (.acc (cellOf 1 .entry 0) true), some (.acc (cellOf 2 .entry 0) true)] ∧
    racy .layer .addDocuments .addDocuments = true := by decide +kernel

/-- what is guarded is used: a search is about to read the tombstones while a deletion waits for the lock to set one -/
example : (reached (begin [(.search, 1, [0, 1, 1]), (.delete, 1, [1])]) (List.replicate 3 0 ++ List.replicate 6 1)).map
      (fun t => (t.waiting, t.todo.head?)) =
    [(false, some (.acc (cellOf 1 .tombs 0) false)), (true, some (.take (lockOf 1 .tomb 0) true))] := by
  decide +kernel

end Fave.C76
