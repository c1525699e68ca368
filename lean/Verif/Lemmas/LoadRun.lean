import Verif.Lemmas.Load
/-!
# Running threads that load vertices, step by step

Used for witnesses and examples.
-/
namespace Fave.Load
variable {V : Type} {J : Nat → Use V}

/-- the next step of thread `t` -/
def advance (J : Nat → Use V) (s : St V) (t : Nat) : Option (St V) :=
  match s.pc t with
  | .idle =>
    match J t with
    | .create v =>
      match s.found v.id with
      | none => some (({ s with heap := s.heap ++ [plain v], cache := s.cache.put v.id s.heap.length } : St V).to t .ended |>.log (.create v))
      | some _ => none
    | .look id => match s.cache.get id with | some p => some (s.to t (.holding p)) | none => some (s.to t .missed)
    | .change id _ => match s.cache.get id with | some p => some (s.to t (.holding p)) | none => some (s.to t .missed)
  | .missed =>
    match s.kv.get (J t).id with
    | some v => some (({ s with heap := s.heap ++ [plain v] } : St V).to t (.loaded s.heap.length))
    | none => some (s.to t .ended)
  | .loaded p => some (({ s with cache := s.cache.put (J t).id p } : St V).to t (.holding p))
  | .holding p =>
    match J t with
    | .look _ => some (s.to t .ended)
    | .change id f =>
      match s.heap[p]? with
      | some v => some (({ s with heap := s.heap.set p (plain (f (plain v))), cache := s.cache.put id p } : St V).to t .ended |>.log (.change id f))
      | none => none
    | .create _ => none
  | .ended => none

/-- a flush stores a vertex -/
def save (s : St V) (id : Nat) : Option (St V) :=
  match s.cache.get id with
  | some p =>
    match s.heap[p]? with
    | some v => if v.committed = false then some { s with kv := s.kv.put id (plain v), heap := s.heap.set p { v with committed := true } } else none
    | none => none
  | none => none

theorem advance_step {m : Mode V} {s s' : St V} {t : Nat} (h : advance J s t = some s')
    (hm : s.pc t = .idle → s.cache.get (J t).id = none → m.miss s (J t).id) (hc : ∀ v, s.pc t = .idle → J t = .create v → m.create s v.id) :
    Step J m s s' := by
  unfold advance at h
  split at h
  · rename_i hp
    split at h
    · rename_i v hj
      split at h
      · rename_i hf; cases h; exact .create t v hp hj hf (hc v hp hj)
      · cases h
    · rename_i id hj
      have hid : (J t).id = id := by rw [hj]; rfl
      have hn : ∀ v, J t ≠ .create v := fun v e => by rw [hj] at e; cases e
      split at h
      · rename_i p hg; cases h; exact .hit t p hp hn (by rw [hid]; exact hg)
      · rename_i hg; cases h; exact .miss t hp hn (by rw [hid]; exact hg) (hm hp (by rw [hid]; exact hg))
    · rename_i id f hj
      have hid : (J t).id = id := by rw [hj]; rfl
      have hn : ∀ v, J t ≠ .create v := fun v e => by rw [hj] at e; cases e
      split at h
      · rename_i p hg; cases h; exact .hit t p hp hn (by rw [hid]; exact hg)
      · rename_i hg; cases h; exact .miss t hp hn (by rw [hid]; exact hg) (hm hp (by rw [hid]; exact hg))
  · rename_i hp
    split at h
    · rename_i v hk; cases h; exact .load t v hp hk
    · rename_i hk; cases h; exact .absent t hp hk
  · rename_i p hp; cases h; exact .add t p hp
  · rename_i p hp
    split at h
    · rename_i id hj; cases h; exact .look t p id hp hj
    · rename_i id f hj
      split at h
      · rename_i v hv; cases h; exact .change t p id f v hp hj hv
      · cases h
    · cases h
  · cases h

theorem save_step {m : Mode V} {s s' : St V} {id : Nat} (h : save s id = some s') : Step J m s s' := by
  unfold save at h
  split at h
  · rename_i p hp
    split at h
    · rename_i v hv
      split at h
      · rename_i hc; cases h; exact .save id p v hp hv hc
      · cases h
    · cases h
  · cases h

theorem advance_pc {s s' : St V} {t u : Nat} (h : advance J s t = some s') (hu : u ≠ t) : s'.pc u = s.pc u := by
  have key : ∀ (s1 : St V) p, s1.pc = s.pc → (s1.to t p).pc u = s.pc u := fun s1 p e => by rw [to_ne _ _ hu, e]
  unfold advance at h
  split at h
  · split at h
    · split at h
      · cases h; exact key _ _ rfl
      · cases h
    · split at h <;> (cases h; exact key _ _ rfl)
    · split at h <;> (cases h; exact key _ _ rfl)
  · split at h <;> (cases h; exact key _ _ rfl)
  · cases h; exact key _ _ rfl
  · split at h
    · cases h; exact key _ _ rfl
    · split at h
      · cases h; exact key _ _ rfl
      · cases h
    · cases h
  · cases h

theorem save_pc {s s' : St V} {id : Nat} (h : save s id = some s') : s'.pc = s.pc := by
  unfold save at h
  split at h
  · split at h
    · split at h
      · cases h; rfl
      · cases h
    · cases h
  · cases h

/-- whose turn it is -/
inductive Turn where
  | go (t : Nat)
  | save (id : Nat)

/-- a schedule -/
def run (J : Nat → Use V) : List Turn → St V → Option (St V)
  | [], s => some s
  | .go t :: ts, s => (advance J s t).bind (run J ts)
  | .save id :: ts, s => (Load.save s id).bind (run J ts)

theorem run_reach (ts : List Turn) {s0 s s' : St V} (h0 : Reach J free s0 s) (h : run J ts s = some s') : Reach J free s0 s' := by
  induction ts generalizing s with
  | nil => cases h; exact h0
  | cons t ts ih =>
    cases t with
    | go t =>
      obtain ⟨s1, h1, h2⟩ := Option.bind_eq_some_iff.mp h
      exact ih (h0.step (advance_step h1 (fun _ _ => trivial) (fun _ _ _ => trivial))) h2
    | save id =>
      obtain ⟨s1, h1, h2⟩ := Option.bind_eq_some_iff.mp h
      exact ih (h0.step (save_step h1)) h2

/-- threads that never have a turn do not move -/
theorem run_pc (ts : List Turn) {s s' : St V} (h : run J ts s = some s') {u : Nat} (hu : ∀ t ∈ ts, match t with | .go t => u ≠ t | .save _ => True) :
    s'.pc u = s.pc u := by
  induction ts generalizing s with
  | nil => cases h; rfl
  | cons t ts ih =>
    have hts := fun t ht => hu t (List.mem_cons_of_mem _ ht)
    cases t with
    | go t =>
      obtain ⟨s1, h1, h2⟩ := Option.bind_eq_some_iff.mp h
      have h3 : u ≠ t := hu (.go t) (by simp)
      exact (ih h2 hts).trans (advance_pc h1 h3)
    | save id =>
      obtain ⟨s1, h1, h2⟩ := Option.bind_eq_some_iff.mp h
      rw [ih h2 hts, save_pc h1]

/-- a schedule in which a thread has its turn only when the one before is not loading; `l` had the last turn -/
def runS (J : Nat → Use V) : Nat → List Turn → St V → Option (St V)
  | _, [], s => some s
  | l, .go t :: ts, s => if t = l ∨ (s.pc l).loading = false then (advance J s t).bind (runS J t ts) else none
  | l, .save id :: ts, s => (Load.save s id).bind (runS J l ts)

theorem runS_reach (ts : List Turn) {s0 s s' : St V} {l : Nat} (h0 : Reach J (single J) s0 s) (hl : ∀ u, u ≠ l → (s.pc u).loading = false)
    (h : runS J l ts s = some s') : Reach J (single J) s0 s' := by
  induction ts generalizing s l with
  | nil => cases h; exact h0
  | cons t ts ih =>
    cases t with
    | go t =>
      unfold runS at h
      split at h
      · rename_i hc
        obtain ⟨s1, h1, h2⟩ := Option.bind_eq_some_iff.mp h
        have hlt : ∀ u, u ≠ t → (s.pc u).loading = false := by
          intro u hu
          by_cases hul : u = l
          · rcases hc with rfl | hc
            · exact absurd hul hu
            · rw [hul]; exact hc
          · exact hl u hul
        have hid : s.pc t = .idle → ∀ u, (s.pc u).loading = false := by
          intro hp u
          by_cases hu : u = t
          · rw [hu, hp]; rfl
          · exact hlt u hu
        refine ih (h0.step (advance_step h1 (fun hp _ u _ => hid hp u) (fun v hp _ u _ => hid hp u))) ?_ h2
        intro u hu
        rw [advance_pc h1 hu]; exact hlt u hu
      · cases h
    | save id =>
      obtain ⟨s1, h1, h2⟩ := Option.bind_eq_some_iff.mp h
      exact ih (h0.step (save_step h1)) (by rw [save_pc h1]; exact hl) h2

/-- a schedule in which only vertices that are there are looked up -/
def runP (J : Nat → Use V) : List Turn → St V → Option (St V)
  | [], s => some s
  | .go t :: ts, s =>
    match s.pc t, s.found (J t).id, J t with
    | .idle, none, .look _ => none
    | .idle, none, .change _ _ => none
    | _, _, _ => (advance J s t).bind (runP J ts)
  | .save id :: ts, s => (Load.save s id).bind (runP J ts)

theorem runP_reach (ts : List Turn) {s0 s s' : St V} (h0 : Reach J present s0 s) (h : runP J ts s = some s') : Reach J present s0 s' := by
  induction ts generalizing s with
  | nil => cases h; exact h0
  | cons t ts ih =>
    cases t with
    | go t =>
      unfold runP at h
      split at h
      · cases h
      · cases h
      · rename_i hn1 hn2
        obtain ⟨s1, h1, h2⟩ := Option.bind_eq_some_iff.mp h
        by_cases hj : ∃ v, J t = .create v
        · obtain ⟨v, hj⟩ := hj
          refine ih (h0.step ?_) h2
          cases hp : s.pc t with
          | idle =>
            unfold advance at h1
            rw [hp, hj] at h1
            dsimp only at h1
            split at h1
            · rename_i hf; cases h1; exact .create t v hp hj hf trivial
            · cases h1
          | _ => exact advance_step h1 (fun e => by rw [hp] at e; cases e) (fun _ _ _ => trivial)
        · refine ih (h0.step (advance_step h1 ?_ (fun _ _ _ => trivial))) h2
          intro hp _ hf
          cases hu : J t with
          | look id => exact hn1 id hp (by rw [← hf]) hu
          | change id f => exact hn2 id f hp (by rw [← hf]) hu
          | create v => exact hj ⟨v, hu⟩
    | save id =>
      obtain ⟨s1, h1, h2⟩ := Option.bind_eq_some_iff.mp h
      exact ih (h0.step (save_step h1)) h2

end Fave.Load
