import Verif.Spec.Pools
import Verif.Lemmas.Visited
/-! # Pools: the order of takings and puttings back in the code -/
namespace Fave.Pools
variable {A : Type}

abbrev Live := Slot → Bool
def Live.set (L : Live) (sl : Slot) (b : Bool) : Live := fun x => if x = sl then b else L x

/-- forward check of a trace: which variables hold an object of their own -/
def chk1 (n : Nat) (L : Live) : Op A → Option Live
  | .borrow => some (L.set .vis true)
  | .get k _ => some (L.set (.q k) true)
  | .visit _ => if L .vis then some L else none
  | .enter ids => if L .vis && ids.all (· < n) then some L else none
  | .giveBack => if L .vis then some (L.set .vis false) else none
  | .edit k _ _ => if L (.q k) then some L else none
  | .put k => if L (.q k) then some (L.set (.q k) false) else none

def chk (n : Nat) : Live → List (Op A) → Option Live
  | L, [] => some L
  | L, op :: ops => match chk1 n L op with | none => none | some L' => chk n L' ops

theorem chk_append (n : Nat) (L : Live) (a b : List (Op A)) : chk n L (a ++ b) = (chk n L a).bind (fun L' => chk n L' b) := by
  induction a generalizing L with
  | nil => rfl
  | cons op a ih =>
    show (match chk1 n L op with | none => none | some L' => chk n L' (a ++ b)) = Option.bind (match chk1 n L op with | none => none | some L' => chk n L' a) _
    cases chk1 n L op with
    | none => rfl
    | some L' => exact ih L'

theorem chk_append_of {n : Nat} {L L' : Live} {a b : List (Op A)} (h : chk n L a = some L') : chk n L (a ++ b) = chk n L' b := by
  rw [chk_append, h]; rfl

theorem chk_cons_of {n : Nat} {L L' : Live} {op : Op A} {b : List (Op A)} (h : chk1 n L op = some L') : chk n L (op :: b) = chk n L' b := by
  show (match chk1 n L op with | none => none | some L' => chk n L' b) = _
  rw [h]

/-- what is needed is held -/
theorem needs_live {n : Nat} {ops : List (Op A)} {L : Live} (h : (chk n L ops).isSome) {sl : Slot} (hn : needs sl ops = true) : L sl = true := by
  induction ops generalizing L with
  | nil => cases hn
  | cons op ops ih =>
    unfold chk at h
    cases hc : chk1 n L op with
    | none => rw [hc] at h; cases h
    | some L' =>
      rw [hc] at h
      have ih := ih h
      unfold needs at hn
      cases op <;> simp only [chk1, Op.uses, Op.gets, Bool.false_eq_true, if_false, decide_eq_true_eq] at hc hn
      case borrow =>
        cases hc
        split at hn
        · cases hn
        · rename_i hne; have := ih hn; simpa [Live.set, hne] using this
      case get k c =>
        cases hc
        split at hn
        · cases hn
        · rename_i hne; have := ih hn; simpa [Live.set, hne] using this
      case visit id =>
        split at hc
        · cases hc
          split at hn
          · rename_i e; subst e; assumption
          · exact ih hn
        · cases hc
      case enter ids =>
        split at hc
        · rename_i hl
          cases hc
          split at hn
          · rename_i e; subst e; simp only [Bool.and_eq_true] at hl; exact hl.1
          · exact ih hn
        · cases hc
      case giveBack =>
        split at hc
        · cases hc
          split at hn
          · rename_i e; subst e; assumption
          · rename_i hne; have := ih hn; simpa [Live.set, hne] using this
        · cases hc
      case edit k f g =>
        split at hc
        · cases hc
          split at hn
          · rename_i e; subst e; assumption
          · exact ih hn
        · cases hc
      case put k =>
        split at hc
        · cases hc
          split at hn
          · rename_i e; subst e; assumption
          · rename_i hne; have := ih hn; simpa [Live.set, hne] using this
        · cases hc

/-- uses do not change what is held -/
theorem chk_edits {n : Nat} {L : Live} {ops : List (Op A)} (h : ∀ op ∈ ops, chk1 n L op = some L) : chk n L ops = some L := by
  induction ops with
  | nil => rfl
  | cons op ops ih => rw [chk_cons_of (h op (by simp))]; exact ih (fun o ho => h o (List.mem_cons_of_mem _ ho))

@[simp] theorem set_self (L : Live) (sl : Slot) (b : Bool) : (L.set sl b) sl = b := by simp [Live.set]
theorem set_ne (L : Live) {sl x : Slot} (b : Bool) (h : x ≠ sl) : (L.set sl b) x = L x := by simp [Live.set, h]

theorem chk_works {n : Nat} {L : Live} (ws : List (Work A)) (hv : L .vis = true) (hc : L (.q .cand) = true) (hr : L (.q .res) = true) :
    chk n L (ws.map Work.op) = some L := by
  refine chk_edits (fun op ho => ?_)
  obtain ⟨w, _, rfl⟩ := List.mem_map.mp ho
  cases w <;> simp [Work.op, chk1, hv, hc, hr]

theorem chk_res {n : Nat} {L : Live} (es : List (Edit A)) (hr : L (.q .res) = true) : chk n L (es.map editRes) = some L := by
  refine chk_edits (fun op ho => ?_)
  obtain ⟨w, _, rfl⟩ := List.mem_map.mp ho
  simp [editRes, chk1, hr]

/-- a search of a layer: from whatever state; afterwards the caller holds the results -/
theorem chk_layer {n : Nat} (L : Live) (x : Layer A) (hx : x.Fits n) :
    ∃ L', chk n L x.ops = some L' ∧ (x.fail = false → L' (.q .res) = true) := by
  have h0 : chk n L [(.borrow : Op A), .get .cand x.ef, .get .res x.ef, .enter x.entries] =
      some (((L.set .vis true).set (.q .cand) true).set (.q .res) true) := by
    have : x.entries.all (· < n) = true := by simpa [Layer.Fits] using hx
    simp only [chk, chk1, set_self]
    rw [if_pos (by simp [Live.set]; simpa using this)]
  unfold Layer.ops
  rw [List.append_assoc, chk_append_of h0, chk_append_of (chk_works x.start (by simp [Live.set]) (by simp [Live.set]) (by simp [Live.set]))]
  cases hf : x.fail with
  | true => exact ⟨_, rfl, fun h => by cases h⟩
  | false =>
    simp only [Bool.false_eq_true, if_false]
    rw [chk_append_of (chk_works x.loop (by simp [Live.set]) (by simp [Live.set]) (by simp [Live.set]))]
    refine ⟨_, by simp [chk, chk1, Live.set]; rfl, fun _ => by simp [Live.set]⟩

theorem chk_level {n : Nat} (L : Live) (x : Level A) (hx : x.layer.Fits n) : ∃ L', chk n L x.ops = some L' := by
  obtain ⟨L1, h1, h2⟩ := chk_layer L x.layer hx
  unfold Level.ops
  rw [chk_append_of h1]
  cases hf : x.layer.fail with
  | true => exact ⟨_, rfl⟩
  | false =>
    simp only [Bool.false_eq_true, if_false]
    rw [chk_append_of (chk_res x.edits (h2 hf))]
    cases x.stop with
    | true => exact ⟨_, rfl⟩
    | false => exact ⟨_, by simp [chk, chk1, h2 hf]; rfl⟩

theorem chk_levels {n : Nat} (L : Live) (xs : List (Level A)) (hx : ∀ x ∈ xs, x.layer.Fits n) : ∃ L', chk n L (levels xs).1 = some L' := by
  induction xs generalizing L with
  | nil => exact ⟨_, rfl⟩
  | cons x xs ih =>
    obtain ⟨L1, h1⟩ := chk_level L x (hx x (by simp))
    unfold levels
    split
    · exact ⟨L1, h1⟩
    · simp only; rw [chk_append_of h1]; exact ih L1 (fun y hy => hx y (List.mem_cons_of_mem _ hy))

theorem chk_heur {n : Nat} (L : Live) (pooled : Bool) (x : Heur A) (hr : pooled = true → L (.q .res) = true) :
    ∃ L', chk n L (x.ops pooled) = some L' ∧ (L (.q .res) = true → L' (.q .res) = true) := by
  unfold Heur.ops
  have h0 : chk n L [(.get .heur x.size : Op A)] = some (L.set (.q .heur) true) := by simp [chk, chk1]
  have h1 : chk n (L.set (.q .heur) true) (x.fill.flatMap (fun e => (HWork.input e.1).op pooled ++ (HWork.heur e.2).op pooled)) = some (L.set (.q .heur) true) := by
    refine chk_edits (fun op ho => ?_)
    obtain ⟨e, _, he⟩ := List.mem_flatMap.mp ho
    simp only [HWork.op, List.mem_append, List.mem_singleton] at he
    rcases he with he | rfl
    · cases hp : pooled with
      | false => rw [hp] at he; simp at he
      | true =>
        rw [hp] at he
        simp only [if_true, List.mem_singleton] at he
        subst he
        simp [chk1, Live.set, hr hp]
    · simp [chk1, Live.set]
  rw [List.append_assoc, chk_append_of h0, chk_append_of h1]
  cases x.early with
  | true => exact ⟨_, rfl, fun h => by simp [Live.set, h]⟩
  | false =>
    simp only [Bool.false_eq_true, if_false]
    have h2 : chk n (L.set (.q .heur) true) [(.get .slice 0 : Op A)] = some ((L.set (.q .heur) true).set (.q .slice) true) := by simp [chk, chk1]
    have h3 : chk n ((L.set (.q .heur) true).set (.q .slice) true)
        (x.pickings.flatMap (picking pooled)) =
        some ((L.set (.q .heur) true).set (.q .slice) true) := by
      refine chk_edits (fun op ho => ?_)
      obtain ⟨e, _, he⟩ := List.mem_flatMap.mp ho
      simp only [picking, HWork.op, List.mem_append, List.mem_cons, List.not_mem_nil, or_false] at he
      rcases he with rfl | rfl | he
      · simp [chk1, Live.set]
      · simp [readSlice, chk1, Live.set]
      · split at he
        · simp only [List.mem_singleton] at he
          subst he
          simp [chk1, Live.set]
        · cases he
    rw [List.append_assoc, chk_append_of h2, chk_append_of h3]
    cases x.late with
    | true => exact ⟨_, rfl, fun h => by simp [Live.set, h]⟩
    | false =>
      simp only [Bool.false_eq_true, if_false]
      have h4 : chk n ((L.set (.q .heur) true).set (.q .slice) true) [(.put .heur : Op A)] =
          some (((L.set (.q .heur) true).set (.q .slice) true).set (.q .heur) false) := by simp [chk, chk1, Live.set]
      have h5 : chk n (((L.set (.q .heur) true).set (.q .slice) true).set (.q .heur) false) (x.back.flatMap (fun e => readSlice :: (HWork.input e).op pooled)) =
          some (((L.set (.q .heur) true).set (.q .slice) true).set (.q .heur) false) := by
        refine chk_edits (fun op ho => ?_)
        obtain ⟨e, _, he⟩ := List.mem_flatMap.mp ho
        simp only [HWork.op, List.mem_cons] at he
        rcases he with rfl | he
        · simp [readSlice, chk1, Live.set]
        cases hp : pooled with
        | false => rw [hp] at he; simp at he
        | true =>
          rw [hp] at he
          simp only [if_true, List.mem_singleton] at he
          subst he
          simp [chk1, Live.set, hr hp]
      rw [List.append_assoc, chk_append_of h4, chk_append_of h5]
      exact ⟨_, by simp [chk, chk1, Live.set]; rfl, fun h => by simp [Live.set, h]⟩

theorem chk_neighbours {n : Nat} (L : Live) (xs : List (Heur A)) : ∃ L', chk n L (neighbours xs) = some L' := by
  induction xs generalizing L with
  | nil => exact ⟨_, rfl⟩
  | cons x xs ih =>
    obtain ⟨L1, h1, _⟩ := chk_heur (n := n) L false x (fun h => by cases h)
    unfold neighbours
    split
    · exact ⟨L1, h1⟩
    · rw [chk_append_of h1]; exact ih L1

theorem chk_link {n : Nat} (L : Live) (x : Link A) (hx : x.layer.Fits n) : ∃ L', chk n L x.ops = some L' := by
  obtain ⟨L1, h1, h2⟩ := chk_layer L x.layer hx
  unfold Link.ops
  rw [chk_append_of h1]
  cases hf : x.layer.fail with
  | true => exact ⟨_, rfl⟩
  | false =>
    simp only [Bool.false_eq_true, if_false]
    have hr := h2 hf
    obtain ⟨L2, h3, h4⟩ : ∃ L2, chk n L1 x.choose = some L2 ∧ L2 (.q .res) = true := by
      unfold Link.choose
      cases x.heur with
      | none => exact ⟨L1, rfl, hr⟩
      | some h =>
        obtain ⟨L2, g1, g2⟩ := chk_heur (n := n) L1 true h (fun _ => hr)
        exact ⟨L2, g1, g2 hr⟩
    rw [chk_append_of h3]
    split
    · exact ⟨_, rfl⟩
    · have h5 : chk n L2 [(.put .res : Op A)] = some (L2.set (.q .res) false) := by simp [chk, chk1, h4]
      rw [List.append_assoc, chk_append_of (chk_res x.edits h4), chk_append_of h5]
      exact chk_neighbours _ _

theorem chk_call {n : Nat} (L : Live) (c : Call A) (hx : c.Fits n) : ∃ L', chk n L c.ops = some L' := by
  cases c with
  | search above base =>
    obtain ⟨L1, h1⟩ := chk_levels L above hx.1
    simp only [Call.ops]
    split
    · rw [chk_append_of h1]; exact chk_level L1 base hx.2
    · exact ⟨L1, h1⟩
  | best above => exact chk_levels L above hx
  | link x => exact chk_link L x hx

/-- every sequence of calls takes objects before it uses them, and does not use them after putting them back -/
theorem chk_calls {n : Nat} (L : Live) (cs : List (Call A)) (hx : ∀ c ∈ cs, c.Fits n) : ∃ L', chk n L (opsOf cs) = some L' := by
  induction cs generalizing L with
  | nil => exact ⟨_, rfl⟩
  | cons c cs ih =>
    obtain ⟨L1, h1⟩ := chk_call L c (hx c (by simp))
    show ∃ L', chk n L (c.ops ++ opsOf cs) = some L'
    rw [chk_append_of h1]
    exact ih L1 (fun d hd => hx d (List.mem_cons_of_mem _ hd))

end Fave.Pools
