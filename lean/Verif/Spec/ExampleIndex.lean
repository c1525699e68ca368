import Verif.Model.History
import Verif.Spec.Example
/-!
# A small index used in the non-vacuity examples
-/
namespace Fave.Ex
open Index

/-- vectors of whole numbers, distance = sum of the differences, undefined for different lengths -/
def vmetric : Metric (List Nat) Nat :=
  ⟨fun a b => if a.length = b.length then some ((List.zipWith (fun x y => x - y + (y - x)) a b).sum) else none, List.length⟩

/-- small limits: 2 links above, 3 links on the base layer, 16 numbers -/
def P : Params (List Nat) Nat :=
  { metric := vmetric, norm := id, maxConn := 2, maxConn0 := 3, efC := 4, cacheSize := 16, visitedSize := 20, jsonOk := fun _ => true }

theorem P_ok : P.Ok := ⟨by decide, by decide, fun a b h => by simp only [P, vmetric] at *; rw [if_neg h], fun _ => rfl⟩

def vecs : List (List Nat) := [[10, 0], [12, 0], [30, 1], [11, 5], [50, 0], [13, 2]]

/-- a vector cache that knows the vectors -/
def vo : VecOracle (List Nat) := fun _ _ _ id => vecs[id]?

def sched : Graph.Scheds Nat := fun l => if l = 0 then Sched.rev else Sched.id

/-- additions of `vecs[x]` with the given levels -/
def addsW (Q : Params (List Nat) Nat) : Index (List Nat) → List (Nat × Nat) → Index (List Nat) × Option Err
  | s, [] => (s, none)
  | s, (x, level) :: r =>
    match Index.add Q vo sched s x (vecs.getD x []) level with
    | (s, none) => addsW Q s r
    | r => r
abbrev adds := addsW P

/-- four vectors on levels 0, 1, 0, 2 -/
def s4 : Index (List Nat) := (adds init [(0, 0), (1, 1), (2, 0), (3, 2)]).1
/-- flushed -/
def s4f : Index (List Nat) := (flush P s4 [3, 2, 1, 0] 4).1
/-- restarted, start loaded, two more vectors on levels 1 and 0 -/
def s6 : Index (List Nat) := (adds s4f.reopen.loadEntry [(4, 1), (5, 0)]).1

theorem hist_addsW (Q : Params (List Nat) Nat) (s : Index (List Nat)) (vs : List (List Nat)) (h : Hist Q s vs) (levels : List Nat)
    (hv : ∀ i < levels.length, vs.length + i < vecs.length) :
    ∀ s', addsW Q s ((List.range' vs.length levels.length).zip levels) = (s', none) →
      Hist Q s' (vs ++ (vecs.drop vs.length).take levels.length) := by
  induction levels generalizing s vs with
  | nil => intro s' he; cases he; simpa using h
  | cons l ls ih =>
    intro s' he
    have h0 := hv 0 (by simp)
    rw [List.length_cons, List.range'_succ, List.zip_cons_cons] at he
    unfold addsW at he
    split at he
    · rename_i s1 ha
      have hg : vecs.getD vs.length [] = vecs[vs.length] := by
        rw [List.getD_eq_getElem?_getD, List.getElem?_eq_getElem (by omega)]; rfl
      rw [hg] at ha
      have h1 := Hist.add vo sched _ l h ha
      have := ih s1 _ h1 (fun i hi => by have := hv (i + 1) (by simpa using hi); simp; omega) s' (by simpa using he)
      have e : vs ++ [vecs[vs.length]] ++ List.take ls.length (List.drop (vs ++ [vecs[vs.length]]).length vecs) =
          vs ++ List.take (l :: ls).length (List.drop vs.length vecs) := by
        have hd := List.drop_eq_getElem_cons (show vs.length < vecs.length by omega)
        rw [hd, List.length_cons, List.take_succ_cons]
        simp
      rw [e] at this
      exact this
    · rename_i r hr
      exact absurd he (hr s')

theorem hist4 : Hist P s4 (vecs.take 4) := by
  have h : adds init [(0, 0), (1, 1), (2, 0), (3, 2)] = (s4, none) := by decide +kernel
  exact hist_addsW P init [] .init [0, 1, 0, 2] (by decide) s4 h

theorem hist4f : Hist P s4f (vecs.take 4) := by
  have h : flush P s4 [3, 2, 1, 0] 4 = (s4f, none) := by decide +kernel
  exact .flush [3, 2, 1, 0] hist4 (by decide) (by decide +kernel) h

theorem hist6 : Hist P s6 vecs := by
  have h : adds s4f.reopen.loadEntry [(4, 1), (5, 0)] = (s6, none) := by decide +kernel
  have h0 : Hist P s4f.reopen ((vecs.take 4).take (s4f.kvCount.getD 0)) := .restart hist4f
  have e : (vecs.take 4).take (s4f.kvCount.getD 0) = vecs.take 4 := by decide +kernel
  rw [e] at h0
  exact hist_addsW P _ (vecs.take 4) (.load h0) [1, 0] (by decide) s6 h

/-- larger limits, so that six vectors are a small collection -/
def PW : Params (List Nat) Nat := { P with maxConn := 8, maxConn0 := 16, efC := 8 }
theorem PW_ok : PW.Ok := ⟨by decide, by decide, P_ok.lens, P_ok.norm⟩
/-- four vectors on levels 0, 1, 0, 2; flush; restart; two more without loading the start -/
def w4f : Index (List Nat) := (flush PW (addsW PW init [(0, 0), (1, 1), (2, 0), (3, 2)]).1 [3, 2, 1, 0] 4).1
def w6 : Index (List Nat) := (addsW PW w4f.reopen [(4, 1), (5, 0)]).1

theorem histW6 : Hist PW w6 vecs := by
  have h4 : Hist PW (addsW PW init [(0, 0), (1, 1), (2, 0), (3, 2)]).1 (vecs.take 4) :=
    hist_addsW PW init [] .init [0, 1, 0, 2] (by decide) _ (by decide +kernel)
  have hf : flush PW (addsW PW init [(0, 0), (1, 1), (2, 0), (3, 2)]).1 [3, 2, 1, 0] 4 = (w4f, none) := by decide +kernel
  have h4f : Hist PW w4f (vecs.take 4) := .flush [3, 2, 1, 0] h4 (by decide) (by decide +kernel) hf
  have h0 : Hist PW w4f.reopen ((vecs.take 4).take (w4f.kvCount.getD 0)) := .restart h4f
  have e : (vecs.take 4).take (w4f.kvCount.getD 0) = vecs.take 4 := by decide +kernel
  rw [e] at h0
  exact hist_addsW PW _ (vecs.take 4) h0 [1, 0] (by decide) w6 (by decide +kernel)

end Fave.Ex
