import Verif.Lemmas.Heuristic
import Verif.Lemmas.AddTotal
import Verif.Lemmas.SearchSize
/-!
# Evaluating additions quickly

For a collection on the base level in which every vector is linked from number 0 and number 0 is among the closest ones,
the search during an addition keeps exactly the closest vectors, so that the effect of the addition can be computed from a
sorted list.
Used to compute a larger example (C10).
-/
namespace Fave.Index
open Queue Search Spec Graph
variable {V D : Type} [Dist D]

/-- insertion into a sorted list -/
def insSorted (x : Item D) : List (Item D) → List (Item D)
  | [] => [x]
  | y :: l => if Dist.lt x.dist y.dist then x :: y :: l else y :: insSorted x l

def sortItems : List (Item D) → List (Item D)
  | [] => []
  | x :: l => insSorted x (sortItems l)

theorem insSorted_perm (x : Item D) (l : List (Item D)) : (insSorted x l).Perm (x :: l) := by
  induction l with
  | nil => exact List.Perm.refl _
  | cons y l ih =>
    unfold insSorted
    split
    · exact List.Perm.refl _
    · exact (ih.cons y).trans (List.Perm.swap x y l)

theorem sortItems_perm (l : List (Item D)) : (sortItems l).Perm l := by
  induction l with
  | nil => exact List.Perm.refl _
  | cons x l ih => exact (insSorted_perm x _).trans (ih.cons x)

/-- is the list strictly increasing? -/
def strictB : List (Item D) → Bool
  | [] => true
  | [_] => true
  | a :: b :: l => Dist.lt a.dist b.dist && strictB (b :: l)

theorem strict_of [LawfulDist D] {l : List (Item D)} (h : strictB l = true) : Strict l := by
  induction l with
  | nil => exact .nil
  | cons a l ih =>
    cases l with
    | nil => exact List.pairwise_singleton _ _
    | cons b l =>
      simp only [strictB, Bool.and_eq_true] at h
      have hs := ih h.2
      refine List.pairwise_cons.mpr ⟨?_, hs⟩
      intro x hx
      rcases List.mem_cons.mp hx with rfl | hx
      · exact h.1
      · exact LawfulDist.trans _ _ _ h.1 ((List.pairwise_cons.mp hs).1 x hx)

/-- distances of the listed numbers to `nb` -/
def distList (P : Params V D) (f : Nat → Option V) (nb : Nat) : List Nat → Except Err (List (Item D))
  | [] => .ok []
  | c :: cs =>
    match distNodes P f c nb with
    | .error e => .error e
    | .ok d => (distList P f nb cs).map (⟨c, d⟩ :: ·)

/-- linking back from `nb` on the base level -/
def fastNeighbor (P : Params V D) (f : Nat → Option V) (x : Nat) (s : Index V) (nb : Nat) : Option (Index V) :=
  match s.get nb with
  | none => none
  | some v =>
    match v.conns[0]? with
    | none => none
    | some cur =>
      let v := { v with committed := false }
      let s := s.put v
      if cur.length < P.maxConn0 then some (s.put (setConns v 0 (cur ++ [x])))
      else
        match distList P f nb (x :: cur) with
        | .error _ => none
        | .ok ds =>
          let l := sortItems ds
          if strictB l && l.all (fun y => decide (y.id < P.cacheSize)) then
            match selList P f P.maxConn0 l with
            | .error _ => none
            | .ok kept => some (s.put (setConns v 0 (kept.reverse.map Item.id)))
          else none

def fastAll (P : Params V D) (f : Nat → Option V) (x : Nat) : Index V → List Nat → Option (Index V)
  | s, [] => some s
  | s, nb :: nbs => (fastNeighbor P f x s nb).bind (fun s => fastAll P f x s nbs)

/-- distances of the query to the numbers below `n`, sorted -/
def candidates (P : Params V D) (s : Index V) (q : V) (n : Nat) : List (Item D) :=
  sortItems ((List.range n).filterMap (fun id => (s.get id).bind (fun v => (P.metric.dist q v.vec).map (⟨id, ·⟩))))

/-- is every number below `n` linked from number 0 on the base level? -/
def star (s : Index V) (n : Nat) : Bool :=
  match s.get 0 with
  | none => false
  | some v =>
    match v.conns[0]? with
    | none => false
    | some links => (List.range n).all (fun b => b == 0 || links.contains b)

/-- addition of a further vector on level 0 -/
def fastAdd (P : Params V D) (f : Nat → Option V) (s : Index V) (x : Nat) (vec : V) : Option (Index V) :=
  if s.entry = 0 ∧ s.maxLayer = 0 ∧ x < P.cacheSize then
    let q := P.norm vec
    let s := { s with once := true }
    let s := s.put (newNode x q 0)
    let l := candidates P s q x
    if strictB l && star s x && (l.take P.efC).any (fun y => y.id == 0) then
      match selList P f P.maxConn (l.take P.efC) with
      | .error _ => none
      | .ok kept =>
        let neighbors := kept.reverse.map Item.id
        match fastAll P f x (s.put (setConns (newNode x q 0) 0 neighbors)) neighbors with
        | none => none
        | some s =>
          match s.get x with
          | none => none
          | some v => some (s.put { v with maint := false })
    else none
  else none

theorem overfull_list [LawfulDist D] {P : Params V D} {f : Nat → Option V} {nb : Nat} {cs : List Nat} {ds : List (Item D)} (h : distList P f nb cs = .ok ds)
    (k : Nat) {q : Array (Item D)} (hq : Heap lessMax q) :
    ∃ r, overfull P (fun _ => f) nb k cs q = .ok r ∧ Heap lessMax r ∧ r.toList.Perm (ds ++ q.toList) := by
  induction cs generalizing k q ds with
  | nil => cases h; exact ⟨q, rfl, hq, List.Perm.refl _⟩
  | cons c cs ih =>
    unfold distList at h
    split at h
    · cases h
    · rename_i d hd
      cases hds : distList P f nb cs with
      | error e => rw [hds] at h; cases h
      | ok ds' =>
        rw [hds] at h
        cases h
        obtain ⟨r, h1, h2, h3⟩ := ih hds (k + 1) (insert_heap swo_max hq ⟨c, d⟩)
        refine ⟨r, ?_, h2, ?_⟩
        · unfold overfull
          rw [hd]; exact h1
        · refine h3.trans ?_
          refine ((insert_perm lessMax q ⟨c, d⟩).append_left ds').trans ?_
          exact List.perm_middle

theorem fastNeighbor_ok [LawfulDist D] {P : Params V D} {f : Nat → Option V} {x nb : Nat} {s s' : Index V} (hx : nb ≠ x) (ht : s.tombs = [])
    (h : fastNeighbor P f x s nb = some s') : connectNeighbor P (fun _ _ _ => f) x 0 s nb = (s', none) := by
  unfold fastNeighbor at h
  split at h
  · cases h
  · rename_i v hv
    split at h
    · cases h
    · rename_i cur hcur
      unfold connectNeighbor
      rw [hv]
      simp only
      rw [if_neg hx, ht]
      simp only [List.contains_nil, Bool.false_eq_true, if_false, Nat.not_lt_zero, gt_iff_lt]
      rw [hcur]
      simp only
      have hmc : maxConns P 0 = P.maxConn0 := rfl
      rw [hmc]
      simp only at h
      by_cases hl : cur.length < P.maxConn0
      · rw [if_pos hl] at h ⊢
        cases h; rfl
      · rw [if_neg hl] at h ⊢
        split at h
        · cases h
        · rename_i ds hds
          split at h
          · rename_i hs
            simp only [Bool.and_eq_true, List.all_eq_true, decide_eq_true_eq] at hs
            split at h
            · cases h
            · rename_i kept hk
              cases h
              unfold distList at hds
              cases hd : distNodes P f x nb with
              | error e => rw [hd] at hds; cases hds
              | ok d =>
                rw [hd] at hds
                simp only
                cases hds' : distList P f nb cur with
                | error e => rw [hds'] at hds; cases hds
                | ok ds' =>
                  rw [hds'] at hds
                  have hds : ds = ⟨x, d⟩ :: ds' := by cases hds; rfl
                  obtain ⟨r, h1, h2, h3⟩ := overfull_list hds' 1 (insert_heap swo_max (heap_empty lessMax) (⟨x, d⟩ : Item D))
                  rw [h1]
                  simp only
                  have hp : r.toList.Perm (sortItems ds) := by
                    refine (h3.trans ((insert_perm lessMax #[] (⟨x, d⟩ : Item D)).append_left ds')).trans ?_
                    refine (List.perm_append_singleton ⟨x, d⟩ ds').trans ?_
                    rw [hds]; exact (sortItems_perm _).symm
                  have hsel := selectNeighbors_list (P := P) (f := f) (max := P.maxConn0) h2 hp (strict_of hs.1) hs.2
                  rw [hk] at hsel
                  cases hr : selectNeighbors P f (fun _ => false) P.maxConn0 r with
                  | error e => rw [hr] at hsel; cases hsel
                  | ok k =>
                    rw [hr] at hsel
                    have hsel : drain lessMax k = kept.reverse := by
                      simpa [Except.map] using hsel
                    simp only [hsel]
          · cases h

theorem fastAll_ok [LawfulDist D] {P : Params V D} {f : Nat → Option V} {x : Nat} {nbs : List Nat} {s s' : Index V} (hx : ∀ nb ∈ nbs, nb ≠ x) (ht : s.tombs = [])
    (h : fastAll P f x s nbs = some s') : connectAll P (fun _ _ _ => f) x 0 s nbs = (s', none) := by
  induction nbs generalizing s with
  | nil => cases h; rfl
  | cons nb nbs ih =>
    unfold fastAll at h
    cases hn : fastNeighbor P f x s nb with
    | none => rw [hn] at h; cases h
    | some s1 =>
      rw [hn] at h
      have h1 := fastNeighbor_ok (hx nb (by simp)) ht hn
      have hs := (connectNeighbor_ext P (fun _ _ _ => f) x 0 s nb).same.tombs
      unfold connectAll
      rw [h1] at hs ⊢
      exact ih (fun b hb => hx b (by simp [hb])) (hs.trans ht) h

/-- a selection of the closest items of a strictly sorted list -/
theorem closest_take [LawfulDist D] {l r : List (Item D)} (hs : Strict l) (m : Nat) (hsub : ∀ x ∈ r, x ∈ l) (hnd : r.Nodup) (hsz : r.length ≤ m)
    (hopt : ∀ y ∈ l, y ∈ r ∨ (m ≤ r.length ∧ ∀ k ∈ r, Dist.lt y.dist k.dist = false)) : r.Perm (l.take m) := by
  have hlnd : l.Nodup := hs.imp (fun {a b} h e => by subst e; rw [LawfulDist.irrefl] at h; cases h)
  have htnd : (l.take m).Nodup := hlnd.sublist (List.take_sublist _ _)
  by_cases hall : ∀ y ∈ l, y ∈ r
  · have hp : r.Perm l := (List.perm_ext_iff_of_nodup hnd hlnd).mpr (fun x => ⟨hsub x, hall x⟩)
    rw [List.take_of_length_le (by rw [← hp.length_eq]; exact hsz)]; exact hp
  · obtain ⟨y0, hy0, hy0r⟩ : ∃ y ∈ l, y ∉ r := by
      refine Classical.byContradiction (fun hc => hall (fun y hy => ?_))
      exact Classical.byContradiction (fun hyr => hc ⟨y, hy, hyr⟩)
    have hlen : r.length = m := by
      rcases hopt y0 hy0 with h | h
      · exact absurd h hy0r
      · omega
    have hsubt : ∀ x ∈ r, x ∈ l.take m := by
      intro x hx
      refine Classical.byContradiction (fun hxt => ?_)
      obtain ⟨i, hi, hix⟩ := List.getElem_of_mem (hsub x hx)
      have hmi : m ≤ i := by
        refine Classical.byContradiction (fun hlt => hxt ?_)
        rw [← hix]
        exact List.mem_take_iff_getElem.mpr ⟨i, by omega, rfl⟩
      -- not everything before position `m` can be kept
      have : ∃ j, ∃ (hj : j < l.length), j < m ∧ l[j] ∉ r := by
        refine Classical.byContradiction (fun hc => ?_)
        have hin : ∀ z ∈ x :: l.take m, z ∈ r := by
          intro z hz
          rcases List.mem_cons.mp hz with rfl | hz
          · exact hx
          · obtain ⟨j, hj, rfl⟩ := List.mem_take_iff_getElem.mp hz
            exact Classical.byContradiction (fun hzr => hc ⟨j, by omega, by omega, hzr⟩)
        have := (List.Nodup.length_le_of_subset (List.nodup_cons.mpr ⟨hxt, htnd⟩) hin)
        simp at this
        omega
      obtain ⟨j, hj, hjm, hjr⟩ := this
      rcases hopt l[j] (List.getElem_mem hj) with h | h
      · exact hjr h
      · have h1 := h.2 x hx
        have h2 := List.pairwise_iff_getElem.mp hs j i hj hi (by omega)
        rw [hix] at h2
        rw [h1] at h2; cases h2
    have hle : (l.take m).length ≤ r.length := by simp; omega
    refine (List.perm_ext_iff_of_nodup hnd htnd).mpr (fun x => ⟨hsubt x, fun hx => ?_⟩)
    refine Classical.byContradiction (fun hxr => ?_)
    have := List.Nodup.length_le_of_subset (List.nodup_cons.mpr ⟨hxr, hnd⟩) (fun z hz => by
      rcases List.mem_cons.mp hz with rfl | hz
      · exact hx
      · exact hsubt z hz : ∀ z ∈ x :: r, z ∈ l.take m)
    simp only [List.length_cons] at this
    omega

/-- during the addition, the search keeps exactly the closest vectors -/
theorem search_star [LawfulDist D] {P : Params V D} (hP : P.Ok) (hsym : ∀ a b, P.metric.dist a b = P.metric.dist b a)
    {s : Index V} {n : Nat} (hn : 0 < n) (hcs : n ≤ P.cacheSize) (ht : s.tombs = [])
    (hold : ∀ id, id < n → ∃ v, s.get id = some v ∧ v.conns.length = v.level + 1)
    (hcl : ∀ id v links b, id < n → s.get id = some v → v.conns[0]? = some links → b ∈ links → b < n)
    {q : V} (hd : ∀ id v, id < n → s.get id = some v → ∃ d, P.metric.dist q v.vec = some d)
    (hstar : star s n = true) (hst : Strict (candidates P s q n)) (hzero : ((candidates P s q n).take P.efC).any (fun y => y.id == 0) = true)
    {sched : Sched D} {d : D} (hed : (s.graph P).distNodeVec 0 q = some d) :
    ∃ r, searchLayer ((s.graph P).senv q none) sched [⟨0, d⟩] P.efC 0 = .ok r ∧ Heap lessMax r ∧ r.toList.Perm ((candidates P s q n).take P.efC) := by
  obtain ⟨r, hr⟩ := search_total_below hP hcs hold hcl hd (sched := sched) (ef := P.efC) (e := ⟨0, d⟩) hn
  have hz := hP.sizes
  have heps : EpsOk ((s.graph P).senv q none) [⟨0, d⟩] :=
    ⟨by simp, fun y hy => by simp at hy; subst hy; show 0 < P.visitedSize; omega⟩
  have hgood0 : Good ((s.graph P).senv q none) ⟨0, d⟩ := good_entry (g := s.graph P) hsym none hed
  obtain ⟨hheap, hopt1, hopt2⟩ := searchLayer_opt heps (by simpa using hgood0) hr
  have hinv := searchLayer_inv (P := fun x => distToNode ((s.graph P).senv q none) x.id = some x.dist) (fun _ h => h) heps (by intro e he; simp at he; subst he; exact hgood0) hr
  have hlt : ∀ y ∈ r.toList, y.id < n :=
    searchLayer_closed (C := fun i => i < n) hcl (fun y hy => by simp at hy; subst hy; exact hn) (keysOk P s q none) heps hr
  have hlink : ∀ b, b < n → b ≠ 0 → ∃ v links, s.get 0 = some v ∧ v.conns[0]? = some links ∧ b ∈ links := by
    intro b hb h0
    unfold star at hstar
    split at hstar
    · cases hstar
    · rename_i v hv
      split at hstar
      · cases hstar
      · rename_i links hl
        rw [List.all_eq_true] at hstar
        have := hstar b (List.mem_range.mpr hb)
        simp [h0] at this
        exact ⟨v, links, hv, hl, this⟩
  have hmem : ∀ y : Item D, y ∈ candidates P s q n ↔ y.id < n ∧ ∃ v, s.get y.id = some v ∧ P.metric.dist q v.vec = some y.dist := by
    intro y
    unfold candidates
    rw [(sortItems_perm _).mem_iff, List.mem_filterMap]
    constructor
    · rintro ⟨a, ha, h⟩
      simp only [Option.bind_eq_some_iff, Option.map_eq_some_iff] at h
      obtain ⟨v, hv, d, hd, rfl⟩ := h
      exact ⟨List.mem_range.mp ha, v, hv, hd⟩
    · rintro ⟨h1, v, h2, h3⟩
      exact ⟨y.id, List.mem_range.mpr h1, by simp [h2, h3]⟩
  have hel : ∀ y, Eligible ((s.graph P).senv q none) 0 y := by
    intro y
    refine ⟨?_, fun _ p hp => by cases hp⟩
    show s.tombs.contains y = false
    rw [ht]; rfl
  have hsub : ∀ y ∈ r.toList, y ∈ candidates P s q n := by
    intro y hy
    have := (hinv.1 y hy).1
    unfold distToNode at this
    rw [hmem]
    split at this
    · cases this
    · rename_i v hv; exact ⟨hlt y hy, v, hv, this⟩
  have hnod : r.toList.Nodup := List.Pairwise.of_map Item.id (fun a b h e => h (congrArg _ e)) hinv.2
  -- an item is determined by its number
  have huniq : ∀ y ∈ candidates P s q n, y.id ∈ r.toList.map Item.id → y ∈ r.toList := by
    intro y hy hyr
    obtain ⟨z, hz, hze⟩ := List.mem_map.mp hyr
    obtain ⟨_, v, h2, h3⟩ := (hmem y).mp hy
    obtain ⟨_, v', h2', h3'⟩ := (hmem z).mp (hsub z hz)
    rw [hze, h2] at h2'; cases h2'
    rw [h3] at h3'
    have : z = y := by
      cases z; cases y
      simp only at hze h3'
      cases h3'; subst hze; rfl
    rw [← this]; exact hz
  by_cases hef : P.efC = 0
  · rw [hef] at hzero; simp at hzero
  have hsz : r.toList.length ≤ P.efC := by
    have := searchLayer_size (m := P.efC) (Int.le_refl _) (by simp; omega) hr
    simpa using this
  have hstart : (⟨0, d⟩ : Item D) ∈ candidates P s q n := by
    rw [hmem]
    refine ⟨hn, ?_⟩
    unfold Good distToNode at hgood0
    split at hgood0
    · cases hgood0
    · rename_i v hv; exact ⟨v, hv, hgood0⟩
  have hkept0 : (⟨0, d⟩ : Item D) ∈ r.toList := by
    rcases hopt1 ⟨0, d⟩ (by simp) (hel 0) with h | ⟨h1, h2⟩
    · exact huniq _ hstart h
    · -- number 0 would be preceded by `efC` closer ones
      refine Classical.byContradiction (fun hc => ?_)
      obtain ⟨z, hz, hz0⟩ := List.any_eq_true.mp hzero
      simp only [beq_iff_eq] at hz0
      obtain ⟨i, hi, hiz⟩ := List.mem_take_iff_getElem.mp hz
      have hz' : z = ⟨0, d⟩ := by
        obtain ⟨_, v, g2, g3⟩ := (hmem z).mp (List.mem_of_mem_take hz)
        obtain ⟨_, v', g2', g3'⟩ := (hmem _).mp hstart
        rw [hz0] at g2
        simp only at g2' g3'
        rw [g2] at g2'; cases g2'
        rw [g3] at g3'
        cases z
        simp only at hz0 g3'
        cases g3'; subst hz0; rfl
      have hsub2 : ∀ y ∈ r.toList, y ∈ (candidates P s q n).take i := by
        intro y hy
        obtain ⟨j, hj, hjy⟩ := List.getElem_of_mem (hsub y hy)
        have hji : j < i := by
          refine Classical.byContradiction (fun hlt => ?_)
          rcases Nat.lt_or_ge i j with h | h
          · have := List.pairwise_iff_getElem.mp hst i j (by omega) hj h
            rw [hiz, hjy, hz'] at this
            rw [h2 y hy] at this; cases this
          · have : i = j := by omega
            subst this
            rw [hiz, hz'] at hjy
            exact hc (hjy ▸ hy)
        rw [← hjy]
        exact List.mem_take_iff_getElem.mpr ⟨j, by omega, rfl⟩
      have := List.Nodup.length_le_of_subset hnod hsub2
      simp only [List.length_take, Array.length_toList] at this
      have h1' : P.efC ≤ r.size := by omega
      omega
  refine ⟨r, hr, hheap, closest_take hst P.efC hsub hnod hsz ?_⟩
  intro y hy
  obtain ⟨hyn, v, hyv, hyd⟩ := (hmem y).mp hy
  by_cases hy0 : y.id = 0
  · left
    exact huniq y hy (by rw [hy0]; exact List.mem_map_of_mem hkept0)
  · obtain ⟨v1, links, g1, g2, g3⟩ := hlink y.id hyn hy0
    rcases hopt2 ⟨0, d⟩ hkept0 y.id y.dist ⟨v1, links, g1, Nat.zero_le _, g2, g3⟩ ⟨v, hyv, hyd⟩ (hel _) with h | ⟨h1, h2⟩
    · exact .inl (huniq y hy h)
    · right
      exact ⟨by simp at h1 ⊢; omega, h2⟩

theorem fastAdd_ok [LawfulDist D] {P : Params V D} (hP : P.Ok) (hdi : ∀ a b, P.metric.len a = P.metric.len b → ∃ d, P.metric.dist a b = some d)
    (hsym : ∀ a b, P.metric.dist a b = P.metric.dist b a)
    {s s' : Index V} {vs : List V} (h : Inv P s vs) (hn : vs ≠ []) {vec : V} (hL : P.metric.len vec ≠ 0) (hlen : ∀ u ∈ vs, P.metric.len u = P.metric.len vec)
    {f : Nat → Option V} (sched : Graph.Scheds D) (hf : fastAdd P f s vs.length vec = some s') :
    add P (fun _ _ _ => f) sched s vs.length vec 0 = (s', none) := by
  unfold fastAdd at hf
  split at hf
  · rename_i hc
    obtain ⟨hent, hml, hcs⟩ := hc
    simp only at hf
    split at hf
    · rename_i hb
      simp only [Bool.and_eq_true] at hb
      obtain ⟨⟨hst, hstar⟩, hzero⟩ := hb
      split at hf
      · cases hf
      · rename_i kept hk
        split at hf
        · cases hf
        · rename_i s1 hall
          split at hf
          · cases hf
          · rename_i v hv
            cases hf
            unfold add
            rw [if_neg hL]
            unfold insertNode
            rw [if_neg (fun hh => hn (h.path.mp hh))]
            simp only
            rw [if_neg (by omega)]
            have hids : IdsOk ({ s with once := true } : Index V) := ⟨h.ids.cache, h.ids.kv⟩
            have hget : ∀ b, b < vs.length → (({ s with once := true } : Index V).put (newNode vs.length (P.norm vec) 0)).get b = s.get b := by
              intro b hb; rw [get_put, if_neg (show b ≠ (newNode vs.length (P.norm vec) 0).id from Nat.ne_of_lt hb)]; rfl
            have hold : ∀ id, id < vs.length → ∃ v, (({ s with once := true } : Index V).put (newNode vs.length (P.norm vec) 0)).get id = some v ∧ v.conns.length = v.level + 1 := by
              intro id hid
              obtain ⟨w, a1, _, a3, _⟩ := h.wf id hid
              exact ⟨w, by rw [hget id hid]; exact a1, a3⟩
            have hcl : ∀ id v links b, id < vs.length → (({ s with once := true } : Index V).put (newNode vs.length (P.norm vec) 0)).get id = some v → v.conns[0]? = some links → b ∈ links → b < vs.length := by
              intro id v links b hid hg hl hb
              rw [hget id hid] at hg
              obtain ⟨w, a1, _, _, a4⟩ := h.wf id hid
              rw [a1] at hg; cases hg
              exact ((a4 0 links hl).2.2.2 b hb).1
            have hlens : ∀ id v, id < vs.length → (({ s with once := true } : Index V).put (newNode vs.length (P.norm vec) 0)).get id = some v → P.metric.len v.vec = P.metric.len vec := by
              intro id v hid hg
              rw [hget id hid] at hg
              have hu : vs[id]? = some vs[id] := List.getElem?_eq_getElem hid
              rw [h.holds id _ v hu hg, hP.norm, hlen _ (List.getElem_mem hid)]
            have hfits : Fits P vs.length (P.metric.len vec) (P.norm vec) (({ s with once := true } : Index V).put (newNode vs.length (P.norm vec) 0)) :=
              ⟨idsOk_put hids _, h.tombs, hlens, hP.norm vec⟩
            have hpos := pos_of_ne_nil hn
            obtain ⟨w, hw, _⟩ := hold 0 hpos
            obtain ⟨d, hd⟩ := hfits.entryDist hL hdi hpos hw
            obtain ⟨r, hr, hheap, hperm⟩ := search_star (s := ({ s with once := true } : Index V).put (newNode vs.length (P.norm vec) 0)) hP hsym hpos (Nat.le_of_lt hcs) h.tombs hold hcl (q := P.norm vec)
              (fun id v hid hg => hdi _ _ (by rw [hP.norm, hlens id v hid hg])) hstar (strict_of hst) hzero (sched := sched 0) hd
            have hmem : ∀ y ∈ candidates P (({ s with once := true } : Index V).put (newNode vs.length (P.norm vec) 0)) (P.norm vec) vs.length, y.id < vs.length := by
              intro y hy
              have hy := (sortItems_perm _).mem_iff.mp hy
              obtain ⟨a, ha, hh⟩ := List.mem_filterMap.mp hy
              simp only [Option.bind_eq_some_iff, Option.map_eq_some_iff] at hh
              obtain ⟨v, hv, d, hd, rfl⟩ := hh
              exact List.mem_range.mp ha
            have hsel := selectNeighbors_list (P := P) (f := f) (max := P.maxConn) hheap hperm ((strict_of hst).sublist (List.take_sublist _ _)) (fun x hx => by have := hmem x (List.mem_of_mem_take hx); omega)
            rw [hk] at hsel
            cases hr2 : selectNeighbors P f (fun _ => false) P.maxConn r with
            | error e => rw [hr2] at hsel; cases hsel
            | ok k =>
              rw [hr2] at hsel
              have hsel : drain lessMax k = kept.reverse := by simpa [Except.map] using hsel
              have hnb : ∀ b ∈ kept.reverse.map Item.id, b ≠ vs.length := by
                intro b hb
                obtain ⟨y, hy, rfl⟩ := List.mem_map.mp hb
                have := hmem y (List.mem_of_mem_take ((selList_sublist hk).subset (List.mem_reverse.mp hy)))
                omega
              have hconn := fastAll_ok (x := vs.length) hnb (s := ((({ s with once := true } : Index V).put (newNode vs.length (P.norm vec) 0)).put (setConns (newNode vs.length (P.norm vec) 0) 0 (kept.reverse.map Item.id)))) h.tombs hall
              unfold connectNew
              have hml' : (({ s with once := true } : Index V).put (newNode vs.length (P.norm vec) 0)).maxLayer = 0 := hml
              have hent' : (({ s with once := true } : Index V).put (newNode vs.length (P.norm vec) 0)).entry = 0 := hent
              rw [hml', hent']
              have hfb : ∀ S, findBest P S sched (P.norm vec) 0 0 0 = .ok 0 := fun _ => rfl
              rw [hfb]
              simp only
              have hmin : Nat.min 0 0 + 1 = 0 + 1 := rfl
              have hdo : doAtLevel P (fun _ _ _ => f) sched (P.norm vec) vs.length (({ s with once := true } : Index V).put (newNode vs.length (P.norm vec) 0)) 0 0 =
                  (s1, .ok (match (kept.reverse.map Item.id).getLast? with | none => 0 | some y => if y = vs.length then 0 else y)) := by
                unfold doAtLevel
                have hpk : pickEntry P (({ s with once := true } : Index V).put (newNode vs.length (P.norm vec) 0)) (P.norm vec) 4 [] 0 = .ok ⟨0, d⟩ := by
                  unfold pickEntry; rw [hw]; simp only; rw [hd]
                rw [hpk]
                simp only
                rw [hr]
                simp only
                rw [hr2]
                simp only
                rw [hsel]
                have hgx : (({ s with once := true } : Index V).put (newNode vs.length (P.norm vec) 0)).get vs.length = some (newNode vs.length (P.norm vec) 0) := by
                  rw [get_put]; exact if_pos rfl
                rw [hgx]
                simp only
                rw [if_neg (by simp [newNode])]
                rw [hconn]
                simp only
                cases (kept.reverse.map Item.id).getLast? <;> rfl
              rw [hmin]
              unfold doLevels
              rw [hdo]
              simp only [doLevels]
              rw [hv]
              simp only
              rw [if_neg]
              simp
    · cases hf
  · cases hf

/-- all additions of a list -/
def fastRun (P : Params V D) (f : Nat → Option V) : Index V → Nat → List V → Option (Index V)
  | s, _, [] => some s
  | s, n, v :: vs => (fastAdd P f s n v).bind (fun s => fastRun P f s (n + 1) vs)

theorem fastRun_hist [LawfulDist D] {P : Params V D} (hP : P.Ok) (hdi : ∀ a b, P.metric.len a = P.metric.len b → ∃ d, P.metric.dist a b = some d)
    (hsym : ∀ a b, P.metric.dist a b = P.metric.dist b a) {L : Nat} (hL : L ≠ 0) {f : Nat → Option V} (sched : Graph.Scheds D)
    {s s' : Index V} {vs ws : List V} (h : Hist P s vs) (hn : vs ≠ []) (hl : ∀ u ∈ vs ++ ws, P.metric.len u = L)
    (hf : fastRun P f s vs.length ws = some s') : Hist P s' (vs ++ ws) := by
  induction ws generalizing s vs with
  | nil => cases hf; simpa using h
  | cons w ws ih =>
    unfold fastRun at hf
    cases ha : fastAdd P f s vs.length w with
    | none => rw [ha] at hf; cases hf
    | some s1 =>
      rw [ha] at hf
      have hw := hl w (by simp)
      have hadd := fastAdd_ok hP hdi hsym (hist_inv hP h) hn (by omega) (fun u hu => by rw [hw, hl u (by simp [hu])]) sched ha
      have := ih (.add _ _ _ _ h hadd) (by simp) (by simpa using hl) (by simpa using hf)
      simpa using this

end Fave.Index
