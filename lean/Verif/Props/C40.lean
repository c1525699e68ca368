import Verif.Lemmas.Delete
import Verif.Props.C39
import Verif.Spec.ExampleIndex
/-!
# C40 — deleted vectors are not returned; a completed clean-up leaves no links to them and no marks

The full statement — *from the moment a deletion returns, no search returns the deleted id; after a completed clean-up no remaining
vector links to a deleted one and the deletion mark is gone* — does not hold of the code: the clean-up itself brings a deleted vector
back (`returned_after_clean_up`), a restart forgets the marks (`restart_forgets_marks`), vectors that were never flushed keep their links
(`unflushed_keeps_links`).  Proved are the parts that hold: until a removal or a restart no kind of search returns the id, and after a
completed clean-up no remaining vector among the stored numbers links to a deleted one and all marks are gone.
-/
namespace Fave.C40
open Index Graph Queue
variable {V D : Type} [Dist D]

/-- Further operations of the same process — additions under any number, flushes with any outcome, loads of the entry point, further
deletions, clean-ups that stop before they remove anything (delete.go:189-205) — in any order and number. -/
inductive Later (P : Params V D) (s : Index V) : Index V → Prop where
  | here : Later P s s
  | add {t} (vo : VecOracle V) (sched : Graph.Scheds D) (x : Nat) (vec : V) (level : Nat) : Later P s t → Later P s (add P vo sched t x vec level).1
  | flush {t} (order : List Nat) (n : Nat) : Later P s t → Later P s (flush P t order n).1
  | cut {t} (order : List Nat) (n : Nat) (ws : List (Write V)) : Later P s t → ws <+: t.flushWrites order n → Later P s (ws.foldl applyWrite t)
  | load {t} : Later P s t → Later P s t.loadEntry
  | unread {t} : Later P s t → Later P s { t with entry := 0 }
  | delete {t} (ids : List Nat) : Later P s t → Later P s (t.delete ids)
  | cleanUp {t} (E : CleanEnv V D) (order : List Nat) : Later P s t → (∀ id, id ∈ order ↔ id ∈ t.tombs) → (t.cleanUp P E order).2 = .ok false →
      Later P s (t.cleanUp P E order).1

theorem later_any {P : Params V D} {s t : Index V} (h : Later P s t) (hs : AnyDel P s) : AnyDel P t := by
  induction h with
  | here => exact hs
  | add vo sched x vec level _ ih => exact .add vo sched x vec level ih
  | flush order n _ ih => exact .flush order n ih
  | cut order n ws _ hp ih => exact .cut order n ws ih hp
  | load _ ih => exact .load ih
  | unread _ ih => exact .unread ih
  | delete ids _ ih => exact .delete ids ih
  | cleanUp E order _ ho _ ih => exact .cleanUp E order ih ho

theorem later_marked {P : Params V D} {s t : Index V} (h : Later P s t) (hs : AnyDel P s) : ∀ id ∈ s.tombs, id ∈ t.tombs := by
  induction h with
  | here => exact fun _ h => h
  | add vo sched x vec level h ih => intro id hid; rw [(add_keeps (anyDel_ids (later_any h hs))).tombs]; exact ih id hid
  | flush order n _ ih => intro id hid; unfold Index.flush; rw [foldl_applyWrite_tombs]; exact ih id hid
  | cut order n ws _ _ ih => intro id hid; rw [foldl_applyWrite_tombs]; exact ih id hid
  | load _ ih => exact ih
  | unread _ ih => exact ih
  | delete ids _ ih => intro id hid; rw [(delete_spec _ ids).1]; exact List.mem_append_right _ (ih id hid)
  | cleanUp E order h ho hstop ih =>
    intro id hid
    rw [(cleanUp_tombs P E _ order (anyDel_ids (later_any h hs)) (fun i hi => (ho i).mp hi)).1 hstop]
    exact ih id hid

theorem marked_after {P : Params V D} {s t : Index V} (hs : AnyDel P s) (ids : List Nat) (h : Later P (s.delete ids) t) :
    ∀ id ∈ ids, (t.graph P).tomb id = true := by
  intro id hid
  have := later_marked h (.delete ids hs) id (by rw [(delete_spec s ids).1]; exact List.mem_append_left _ hid)
  show t.tombs.contains id = true
  simpa using this

/-- **Deleted vectors are not returned** by the distance-bounded search FaVe uses, as long as the process runs and no clean-up has
begun to remove. -/
theorem deleted_not_found_partial (P : Params V D) (s : Index V) (hs : AnyDel P s) (ids : List Nat) (t : Index V) (h : Later P (s.delete ids) t)
    (sched : Scheds D) (q : V) (max : D) (ef : Int) (allow : Option (Nat → Bool)) (found : List Nat) (ds : List D)
    (hf : (t.graph P).knnMaxDist sched q max ef allow = .ok (found, ds)) : ∀ id ∈ ids, id ∉ found := by
  intro id hid hm
  have h1 := knnMaxDist_unmarked hf id hm
  rw [marked_after hs ids h id hid] at h1
  cases h1

/-- The same for `SearchByVector` — graph search or brute force, with or without filter. -/
theorem deleted_not_in_knn_partial (P : Params V D) (s : Index V) (hs : AnyDel P s) (ids : List Nat) (t : Index V) (h : Later P (s.delete ids) t)
    (c : EfConfig) (isEmpty : Bool) (sched : Scheds D) (q : V) (k : Int) (allow : Option (List Nat)) (hits : List (Item D))
    (hf : (t.graph P).searchByVector c isEmpty sched q k allow = .ok hits) : ∀ id ∈ ids, ∀ x ∈ hits, x.id ≠ id := by
  intro id hid x hx he
  have h1 := searchByVector_unmarked hf x hx
  rw [he, marked_after hs ids h id hid] at h1
  cases h1

/-- The same for `SearchByVectorDistance`, which pages through `SearchByVector`. -/
theorem deleted_not_in_pages_partial (P : Params V D) (s : Index V) (hs : AnyDel P s) (ids : List Nat) (t : Index V) (h : Later P (s.delete ids) t)
    (c : EfConfig) (isEmpty : Bool) (scheds : Nat → Scheds D) (q : V) (allow : Option (List Nat)) (within near : D → Bool) (maxLimit : Int)
    (fuel : Nat) (hits : List (Item D))
    (hf : Paging.searchByDistance (fun k => (t.graph P).searchByVector c isEmpty (scheds k) q k allow) within near maxLimit fuel = .ok hits) :
    ∀ id ∈ ids, ∀ x ∈ hits, x.id ≠ id := by
  intro id hid x hx
  obtain ⟨_, k, res, hr, hm⟩ := C39.paging_in_range _ within near maxLimit fuel hits hf x hx
  exact deleted_not_in_knn_partial P s hs ids t h c isEmpty (scheds k) q k allow res hr id hid x hm

/-- **A completed clean-up leaves no links to deleted vectors** in any remaining vector whose number is below the number of entries of the
table (with `n` stored vectors numbered from 0 that is every stored vector: `n` nodes, the entry point and the count), however the
searches, the vector cache and the heuristic behave. -/
theorem cleaned_no_links_partial (P : Params V D) (s : Index V) (hs : AnyDel P s) (E : CleanEnv V D) (order : List Nat)
    (ho : ∀ id, id ∈ order ↔ id ∈ s.tombs) (s' : Index V) (h : s.cleanUp P E order = (s', .ok true)) (n : Nat)
    (hn : n < s.kv.length + (if s.kvEntry.isSome then 1 else 0) + (if s.kvCount.isSome then 1 else 0)) (hd : n ∉ s.tombs) (v : Vertex V)
    (hv : s'.get n = some v) : ∀ links ∈ v.conns, ∀ i ∈ links, i ∉ s.tombs := by
  intro links hl i hi hm
  have hc := (cleanUp_done (anyDel_ids hs) (fun i hi => (ho i).mp hi) h).1
  exact hc n v ⟨hn, fun hx => hd ((ho n).mp hx)⟩ hv links hl i hi ((ho i).mpr hm)

/-- **The marks are gone** after a completed clean-up, every vector that was not marked is still there, and what was marked is no longer
stored (unless the removal was interrupted there). -/
theorem cleaned_marks_gone (P : Params V D) (s : Index V) (hs : AnyDel P s) (E : CleanEnv V D) (order : List Nat)
    (ho : ∀ id, id ∈ order ↔ id ∈ s.tombs) (s' : Index V) (h : s.cleanUp P E order = (s', .ok true)) :
    s'.tombs = [] ∧ (∀ id, id ∉ s.tombs → (s'.get id = none ↔ s.get id = none)) ∧
    ∀ id ∈ s.tombs, E.brkRemove id = false → s'.kv.get id = none := by
  obtain ⟨_, h2, h3, h4⟩ := cleanUp_done (anyDel_ids hs) (fun i hi => (ho i).mp hi) h
  refine ⟨?_, fun id hid => (h4 id (fun hx => hid ((ho id).mp hx))).symm, fun id hid => h3 id ((ho id).mpr hid)⟩
  apply List.eq_nil_iff_forall_not_mem.mpr
  intro id hid
  have hold := (cleanUp_tombs P E s order (anyDel_ids hs) (fun i hi => (ho i).mp hi)).2 id
  rw [h] at hold
  by_cases hx : id ∈ order
  · exact h2 id hx hid
  · exact hx ((ho id).mpr ((hold hx).mp hid))

/-- Hence a deleted vector that was cleaned up without interruption is not returned after a restart: it is no longer stored. -/
theorem cleaned_and_restarted_gone (P : Params V D) (s : Index V) (hs : AnyDel P s) (E : CleanEnv V D) (order : List Nat)
    (ho : ∀ id, id ∈ order ↔ id ∈ s.tombs) (s' : Index V) (h : s.cleanUp P E order = (s', .ok true)) (id : Nat) (hid : id ∈ s.tombs)
    (hb : E.brkRemove id = false) : s'.reopen.get id = none := by
  show (s'.kv.get id).map _ = none
  rw [(cleaned_marks_gone P s hs E order ho s' h).2.2 id hid hb]
  rfl

/-! ## Examples and counterexamples -/

/-- the vector cache knows everything, nothing fails, no interruption -/
def E : CleanEnv (List Nat) Nat := { vec := fun id => Ex.vecs[id]?, vo := fun _ => Ex.vo, sched := fun _ => Ex.sched }

/-- three vectors in a row, all on level 0, flushed -/
def a : Index (List Nat) := (flush Ex.P (Ex.adds init [(0, 0), (1, 0), (2, 0)]).1 [0, 1, 2] 3).1

/-- six vectors on levels 0, 1, 0, 2, 1, 0, flushed; the start is number 3 -/
def b : Index (List Nat) := (flush Ex.P (Ex.adds init [(0, 0), (1, 1), (2, 0), (3, 2), (4, 1), (5, 0)]).1 [0, 1, 2, 3, 4, 5] 6).1

/-- the ids a search for a vector close to number 2 finds -/
def find (s : Index (List Nat)) : Option (List Nat) :=
  match (s.graph Ex.P).knnMaxDist Ex.sched [30, 1] 100 10 none with
  | .ok r => some r.1
  | .error _ => none

theorem anyDel_adds (l : List (Nat × Nat)) (s : Index (List Nat)) (h : AnyDel Ex.P s) : AnyDel Ex.P (Ex.adds s l).1 := by
  induction l generalizing s with
  | nil => exact h
  | cons e l ih =>
    obtain ⟨x, level⟩ := e
    have h1 := AnyDel.add Ex.vo Ex.sched x (Ex.vecs.getD x []) level h
    show AnyDel Ex.P (Ex.addsW Ex.P s ((x, level) :: l)).1
    unfold Ex.addsW
    split
    · rename_i he; rw [he] at h1; exact ih _ h1
    · exact h1

theorem a_any : AnyDel Ex.P a := .flush _ _ (anyDel_adds _ _ .init)
theorem b_any : AnyDel Ex.P b := .flush _ _ (anyDel_adds _ _ .init)

/-- links of a node -/
def linksOf (s : Index (List Nat)) (id : Nat) : Option (List (List Nat)) := (s.get id).map Vertex.conns

-- before and after deleting 2 and 4, and after the clean-up
example : find b = some [2, 5, 1, 0, 4, 3] := by decide +kernel
example : find (b.delete [2, 4]) = some [5, 1, 0, 3] ∧ ((b.delete [2, 4]).cleanUp Ex.P E [2, 4]).2 = .ok true ∧
    find ((b.delete [2, 4]).cleanUp Ex.P E [2, 4]).1 = some [5, 1, 0, 3] ∧
    linksOf b 1 = some [[0, 2, 5], [3, 4]] ∧ linksOf ((b.delete [2, 4]).cleanUp Ex.P E [2, 4]).1 1 = some [[0, 1], [3, 1]] := by decide +kernel

/-- **The clean-up brings a deleted vector back and loses a remaining one**: number 0, the start, is deleted; searches find 2 and 1.  After a
completed clean-up they find 1 and the deleted 0, but no longer 2. -/
theorem returned_after_clean_up : find (a.delete [0]) = some [2, 1] ∧ ((a.delete [0]).cleanUp Ex.P E [0]).2 = .ok true ∧
    find ((a.delete [0]).cleanUp Ex.P E [0]).1 = some [1, 0] := by decide +kernel

/-- **A restart forgets the marks**: the deleted number 0 is found again. -/
theorem restart_forgets_marks : find (a.delete [0]) = some [2, 1] ∧ find (a.delete [0]).reopen.loadEntry = some [2, 1, 0] := by decide +kernel

/-- **An interruption during the removal** takes the mark away but leaves the node stored. -/
theorem interrupted_removal_keeps_node :
    ((a.delete [1]).cleanUp Ex.P { E with brkRemove := fun _ => true } [1]).2 = .ok true ∧
    ((a.delete [1]).cleanUp Ex.P { E with brkRemove := fun _ => true } [1]).1.tombs = [] ∧
    (((a.delete [1]).cleanUp Ex.P { E with brkRemove := fun _ => true } [1]).1.kv.get 1).isSome = true := by decide +kernel

/-- **Vectors that were never flushed keep their links to deleted ones**: the clean-up visits the numbers below the size of the table. -/
theorem unflushed_keeps_links :
    let s := (Ex.adds init [(0, 0), (1, 0), (2, 0)]).1.delete [1]
    (s.cleanUp Ex.P E [1]).2 = .ok true ∧ (s.cleanUp Ex.P E [1]).1.tombs = [] ∧ linksOf (s.cleanUp Ex.P E [1]).1 2 = some [[1]] := by
  decide +kernel

/-- **The changed links are not stored**: after clean-up, flush and restart number 1 again links to the deleted numbers 2 and 4. -/
theorem changes_not_stored :
    let s := ((b.delete [2, 4]).cleanUp Ex.P E [2, 4]).1
    linksOf s 1 = some [[0, 1], [3, 1]] ∧ linksOf (flush Ex.P s [0, 1, 2, 3, 4, 5] 6).1.reopen 1 = some [[0, 2, 5], [3, 4]] := by decide +kernel

/-- **Relinking makes a vector its own neighbour and links others to it twice.** -/
theorem relinked_badly :
    let s := ((b.delete [2, 4]).cleanUp Ex.P E [2, 4]).1
    linksOf s 1 = some [[0, 1], [3, 1]] ∧ linksOf s 0 = some [[1, 3, 1]] := by decide +kernel

/-- **The start loses all its links** when one of them led to a deleted vector and no layer lies above its own (it may only get some back
when others are relinked later). -/
theorem start_loses_links :
    let s := (flush Ex.P (Ex.adds init [(0, 0), (1, 0)]).1 [0, 1] 2).1.delete [1]
    (s.cleanUp Ex.P E [1]).2 = .ok true ∧ linksOf (s.cleanUp Ex.P E [1]).1 0 = some [[]] := by decide +kernel

/-- **A start that is not there is reported**: if the start is among the deleted numbers but cannot be read, no clean-up ever goes through to the
end, whatever else happens. -/
theorem missing_start_is_reported (P : Params V D) (E : CleanEnv V D) (s : Index V) (order : List Nat)
    (h : AnyDel P s) (ho : ∀ id, id ∈ order ↔ id ∈ s.tombs) (hd : s.entry ∈ s.tombs) (hn : s.get s.entry = none) :
    (s.cleanUp P E order).2 ≠ .ok true := by
  have hi := anyDel_ids h
  have hr := (reassignLoop_relinked P E (dl := order) (fun _ => False) (List.range (kvSize s)) s hi (fun i hi => (ho i).mp hi)).1
  unfold Index.cleanUp
  split
  · nofun
  split
  · nofun
  split
  · nofun
  split
  · nofun
  · nofun
  · rename_i s1 he
    rw [he] at hr
    have he1 : s1.entry = s.entry := hr.same.entry
    have hn1 : s1.get s1.entry = none := by rw [he1]; exact (hr.none hi _).mp hn
    split
    · nofun
    · have : replaceEntry order s1 = some .error := by
        unfold replaceEntry
        rw [hn1, he1]
        simp [(ho s.entry).mpr hd]
      rw [this]
      nofun

/-- after a start over the entry could not be read, number 0 counts as the start though only numbers 1 and 2 are stored; it is deleted -/
def lost : Index (List Nat) := { (flush Ex.P (Ex.adds init [(1, 0), (2, 0)]).1 [1, 2] 2).1.reopen with entry := 0 }.delete [0]

example : AnyDel Ex.P lost ∧ (∀ id, id ∈ [0] ↔ id ∈ lost.tombs) ∧ lost.entry ∈ lost.tombs ∧ (lost.get lost.entry).isNone = true ∧
    (lost.cleanUp Ex.P E [0]).2 = .error .error := by
  refine ⟨.delete _ (.unread (.restart (.flush _ _ (anyDel_adds _ _ .init)))), fun id => ?_, by decide +kernel, by decide +kernel, by decide +kernel⟩
  have : lost.tombs = [0] := by decide +kernel
  rw [this]

/-- **Deleting the start before the first flush cuts off everything else**: the index is reset as if the start had been the only vector, the
next addition counts as the first one, and the remaining number 1 is no longer found. -/
theorem reset_cuts_off :
    let s := (Ex.adds init [(0, 0), (1, 0)]).1.delete [0]
    find s = some [1] ∧ find (add Ex.P Ex.vo Ex.sched s 2 [30, 1] 0).1 = some [2] := by decide +kernel

-- the hypotheses of the theorems are met by these states
example : AnyDel Ex.P (b.delete [2, 4]) ∧ (∀ id, id ∈ [2, 4] ↔ id ∈ (b.delete [2, 4]).tombs) := by
  refine ⟨.delete _ b_any, fun id => ?_⟩
  have : (b.delete [2, 4]).tombs = [2, 4] := by decide +kernel
  rw [this]
example : Later Ex.P (b.delete [2, 4]) (add Ex.P Ex.vo Ex.sched (b.delete [2, 4]) 6 [29, 0] 1).1 := .add _ _ _ _ _ .here
example : 1 < b.kv.length + (if b.kvEntry.isSome then 1 else 0) + (if b.kvCount.isSome then 1 else 0) := by decide +kernel

end Fave.C40
