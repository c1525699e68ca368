import Verif.Spec.Effect
/-!
# One load of a vertex at a time: nothing gets lost
-/
namespace Fave.Load
variable {V : Type} {J : Nat → Use V} {s0 s : St V}
open Spec

theorem plain_plain (v : Vertex V) : plain (plain v) = plain v := rfl

theorem map_plain (o : Option (Vertex V)) : (o.map plain).map plain = o.map plain := by cases o <;> rfl

structure Inv (J : Nat → Use V) (s0 s : St V) : Prop where
  obj : ∀ id p, s.cache.get id = some p → ∃ v, s.heap[p]? = some v
  own : ∀ a b p, s.cache.get a = some p → s.cache.get b = some p → a = b
  sync : ∀ id p v, s.cache.get id = some p → s.heap[p]? = some v → v.committed = true → s.kv.get id = some (plain v)
  absent : ∀ t, (s.pc t).loading = true → s.cache.get (J t).id = none
  loaded : ∀ t p, s.pc t = .loaded p → ∃ v w, s.heap[p]? = some v ∧ v.committed = false ∧ s.kv.get (J t).id = some w ∧ plain v = plain w
  new : ∀ t p id, s.pc t = .loaded p → s.cache.get id ≠ some p
  apart : ∀ t u p, s.pc t = .loaded p → s.pc u = .loaded p → t = u
  holding : ∀ t p, s.pc t = .holding p → s.cache.get (J t).id = some p
  one : ∀ t u, (s.pc t).loading = true → (s.pc u).loading = true → (J t).id = (J u).id → t = u
  value : ∀ id, (s.found id).map plain = (s.done id).foldl effect ((s0.found id).map plain)

theorem inv_clean (h : Clean s) : Inv J s s := by
  refine ⟨h.obj, h.own, h.sync, ?_, ?_, ?_, ?_, ?_, ?_, fun id => by rw [h.done]; rfl⟩ <;> (intros; simp_all [h.idle, Pc.loading])

theorem found_cached {id p : Nat} (h : s.cache.get id = some p) : s.found id = s.heap[p]? := by unfold St.found; rw [h]

theorem found_none {id : Nat} (h : s.cache.get id = none) : s.found id = (s.kv.get id).map plain := by unfold St.found; rw [h]

theorem to_self (s : St V) (t : Nat) (p : Pc) : (s.to t p).pc t = p := by simp [St.to]

theorem to_ne (s : St V) {t u : Nat} (p : Pc) (h : u ≠ t) : (s.to t p).pc u = s.pc u := by simp [St.to, h]

/-- a thread moves on, to a place where it is not loading any more, and nothing else changes -/
theorem Inv.goes (h : Inv J s0 s) {t : Nat} {p : Pc} (hl : p.loading = false) (hh : ∀ q, p = .holding q → s.cache.get (J t).id = some q) :
    Inv J s0 (s.to t p) := by
  have hpc : ∀ u, ((s.to t p).pc u).loading = true → u ≠ t ∧ (s.pc u).loading = true := by
    intro u hu
    by_cases hut : u = t
    · subst hut; rw [to_self] at hu; rw [hl] at hu; cases hu
    · rw [to_ne _ _ hut] at hu; exact ⟨hut, hu⟩
  have hld : ∀ u q, (s.to t p).pc u = .loaded q → s.pc u = .loaded q := by
    intro u q hu
    by_cases hut : u = t
    · subst hut; rw [to_self] at hu; subst hu; cases hl
    · rw [to_ne _ _ hut] at hu; exact hu
  refine ⟨h.obj, h.own, h.sync, fun u hu => h.absent u (hpc u hu).2, fun u q hu => h.loaded u q (hld u q hu),
    fun u q id hu => h.new u q id (hld u q hu), fun u w q hu hw => h.apart u w q (hld u q hu) (hld w q hw), ?_,
    fun u w hu hw => h.one u w (hpc u hu).2 (hpc w hw).2, h.value⟩
  intro u q hu
  by_cases hut : u = t
  · subst hut; rw [to_self] at hu; exact hh q hu
  · rw [to_ne _ _ hut] at hu; exact h.holding u q hu

theorem get_set_self {l : List (Vertex V)} {p : Nat} {v w : Vertex V} (h : l[p]? = some v) : (l.set p w)[p]? = some w := by
  rw [List.getElem?_set_self (List.getElem?_eq_some_iff.mp h).1]

theorem inv_step {s' : St V} (h : Inv J s0 s) (hst : Step J (single J) s s') : Inv J s0 s' := by
  cases hst with
  | hit t p hp hj hc => exact h.goes rfl (fun q hq => by cases hq; exact hc)
  | absent t hp hk => exact h.goes rfl (fun q hq => by cases hq)
  | look t p id hp hj => exact h.goes rfl (fun q hq => by cases hq)
  | miss t hp hj hc hm =>
    have hm : ∀ u, (J u).id = (J t).id → (s.pc u).loading = false := hm
    have hld : ∀ u q, (s.to t .missed).pc u = .loaded q → s.pc u = .loaded q := by
      intro u q hu
      by_cases hut : u = t
      · subst hut; rw [to_self] at hu; cases hu
      · rw [to_ne _ _ hut] at hu; exact hu
    refine ⟨h.obj, h.own, h.sync, ?_, fun u q hu => h.loaded u q (hld u q hu),
      fun u q id hu => h.new u q id (hld u q hu), fun u w q hu hw => h.apart u w q (hld u q hu) (hld w q hw), ?_, ?_, h.value⟩
    · intro u hu
      by_cases hut : u = t
      · subst hut; exact hc
      · rw [to_ne _ _ hut] at hu; exact h.absent u hu
    · intro u q hu
      by_cases hut : u = t
      · subst hut; rw [to_self] at hu; cases hu
      · rw [to_ne _ _ hut] at hu; exact h.holding u q hu
    · intro u w hu hw e
      by_cases hut : u = t
      · by_cases hwt : w = t
        · rw [hut, hwt]
        · rw [to_ne _ _ hwt, hm w (by rw [← e, hut])] at hw; cases hw
      · rw [to_ne _ _ hut] at hu
        by_cases hwt : w = t
        · rw [hm u (by rw [e, hwt])] at hu; cases hu
        · rw [to_ne _ _ hwt] at hw
          exact h.one u w hu hw e
  | load t v hp hk =>
    have hget : ∀ (q : Nat) (w : Vertex V), s.heap[q]? = some w → (s.heap ++ [plain v])[q]? = some w := by
      intro q w hq
      rw [List.getElem?_append_left (List.getElem?_eq_some_iff.mp hq).1]; exact hq
    have hback : ∀ id q, s.cache.get id = some q → (s.heap ++ [plain v])[q]? = s.heap[q]? := by
      intro id q hq
      obtain ⟨w, hw⟩ := h.obj id q hq
      rw [hget q w hw, hw]
    have hpt : (s.pc t).loading = true := by rw [hp]; rfl
    have hld : ∀ u q, (s.to t (.loaded s.heap.length)).pc u = .loaded q → (u = t ∧ q = s.heap.length) ∨ (u ≠ t ∧ s.pc u = .loaded q) := by
      intro u q hu
      by_cases hut : u = t
      · subst hut; rw [to_self] at hu; cases hu; exact .inl ⟨rfl, rfl⟩
      · rw [to_ne _ _ hut] at hu; exact .inr ⟨hut, hu⟩
    have hlo : ∀ u, ((s.to t (.loaded s.heap.length)).pc u).loading = true → (s.pc u).loading = true := by
      intro u hu
      by_cases hut : u = t
      · subst hut; exact hpt
      · rw [to_ne _ _ hut] at hu; exact hu
    have hlt : ∀ u q, s.pc u = .loaded q → q < s.heap.length := by
      intro u q hu
      obtain ⟨w, _, hw, _⟩ := h.loaded u q hu
      exact (List.getElem?_eq_some_iff.mp hw).1
    refine ⟨?_, h.own, ?_, fun u hu => h.absent u (hlo u hu), ?_, ?_, ?_, ?_, fun u w hu hw => h.one u w (hlo u hu) (hlo w hw), ?_⟩
    · intro id q hq
      obtain ⟨w, hw⟩ := h.obj id q hq
      exact ⟨w, hget q w hw⟩
    · intro id q w hq hw hc
      refine h.sync id q w hq ?_ hc
      rw [← hback id q hq]; exact hw
    · intro u q hu
      rcases hld u q hu with ⟨rfl, rfl⟩ | ⟨_, hu⟩
      · exact ⟨plain v, v, (by simp : (s.heap ++ [plain v])[s.heap.length]? = some (plain v)), rfl, hk, rfl⟩
      · obtain ⟨a, b, ha, h1, h2, h3⟩ := h.loaded u q hu
        exact ⟨a, b, hget q a ha, h1, h2, h3⟩
    · intro u q id hu hq
      rcases hld u q hu with ⟨rfl, rfl⟩ | ⟨_, hu⟩
      · obtain ⟨w, hw⟩ := h.obj id _ hq
        exact Nat.lt_irrefl _ (List.getElem?_eq_some_iff.mp hw).1
      · exact h.new u q id hu hq
    · intro u w q hu hw
      rcases hld u q hu with ⟨e1, e2⟩ | ⟨_, hu'⟩
      · rcases hld w _ hw with ⟨e3, _⟩ | ⟨_, hw'⟩
        · rw [e1, e3]
        · exact absurd (hlt w _ hw') (by rw [e2]; exact Nat.lt_irrefl _)
      · rcases hld w _ hw with ⟨_, e2⟩ | ⟨_, hw'⟩
        · exact absurd (hlt u _ hu') (by rw [e2]; exact Nat.lt_irrefl _)
        · exact h.apart u w q hu' hw'
    · intro u q hu
      have hu : (s.to t (.loaded s.heap.length)).pc u = .holding q := hu
      by_cases hut : u = t
      · subst hut; rw [to_self] at hu; cases hu
      · rw [to_ne _ _ hut] at hu; exact h.holding u q hu
    · intro id
      show _ = (s.done id).foldl effect _
      rw [← h.value id]
      congr 1
      cases hc : s.cache.get id with
      | none => rw [found_none (s := s) hc]; exact found_none hc
      | some q => rw [found_cached (s := s) hc, ← hback id q hc]; exact found_cached hc
  | add t p hp =>
    have hpt : (s.pc t).loading = true := by rw [hp]; rfl
    have habs := h.absent t hpt
    obtain ⟨v, w, hv, hvc, hk, hvw⟩ := h.loaded t p hp
    have hld : ∀ u q, (s.to t (.holding p)).pc u = .loaded q → u ≠ t ∧ s.pc u = .loaded q := by
      intro u q hu
      by_cases hut : u = t
      · subst hut; rw [to_self] at hu; cases hu
      · rw [to_ne _ _ hut] at hu; exact ⟨hut, hu⟩
    have hlo : ∀ u, ((s.to t (.holding p)).pc u).loading = true → u ≠ t ∧ (s.pc u).loading = true := by
      intro u hu
      by_cases hut : u = t
      · subst hut; rw [to_self] at hu; cases hu
      · rw [to_ne _ _ hut] at hu; exact ⟨hut, hu⟩
    have hc : ∀ id q, (s.cache.put (J t).id p).get id = some q → (id = (J t).id ∧ q = p) ∨ (id ≠ (J t).id ∧ s.cache.get id = some q) := by
      intro id q hq
      rw [Tab.get_put] at hq
      split at hq
      · rename_i he; cases hq; exact .inl ⟨he, rfl⟩
      · rename_i he; exact .inr ⟨he, hq⟩
    refine ⟨?_, ?_, ?_, ?_, fun u q hu => h.loaded u q (hld u q hu).2, ?_,
      fun u w q hu hw => h.apart u w q (hld u q hu).2 (hld w q hw).2, ?_, fun u w hu hw => h.one u w (hlo u hu).2 (hlo w hw).2, ?_⟩
    · intro id q hq
      rcases hc id q hq with ⟨rfl, rfl⟩ | ⟨_, hq⟩
      · exact ⟨v, hv⟩
      · exact h.obj id q hq
    · intro a b q ha hb
      rcases hc a q ha with ⟨ea, ep⟩ | ⟨_, ha'⟩
      · rcases hc b _ hb with ⟨eb, _⟩ | ⟨_, hb'⟩
        · rw [ea, eb]
        · exact absurd (by rw [← ep]; exact hb') (h.new t p b hp)
      · rcases hc b _ hb with ⟨_, ep⟩ | ⟨_, hb'⟩
        · exact absurd (by rw [← ep]; exact ha') (h.new t p a hp)
        · exact h.own a b q ha' hb'
    · intro id q w' hq hw hcm
      have hw : s.heap[q]? = some w' := hw
      rcases hc id q hq with ⟨_, ep⟩ | ⟨_, hq'⟩
      · rw [ep, hv] at hw; cases hw; rw [hvc] at hcm; cases hcm
      · exact h.sync id q w' hq' hw hcm
    · intro u hu
      obtain ⟨hut, hu⟩ := hlo u hu
      show (s.cache.put (J t).id p).get (J u).id = none
      rw [Tab.get_put, if_neg (fun e => hut (h.one u t hu hpt e))]
      exact h.absent u hu
    · intro u q id hu hq
      obtain ⟨hut, hu⟩ := hld u q hu
      rcases hc id q hq with ⟨_, ep⟩ | ⟨_, hq'⟩
      · exact hut (h.apart u t p (by rw [hu, ep]) hp)
      · exact h.new u q id hu hq'
    · intro u q hu
      have hu : (s.to t (.holding p)).pc u = .holding q := hu
      show (s.cache.put (J t).id p).get (J u).id = some q
      by_cases hut : u = t
      · subst hut; rw [to_self] at hu; cases hu; rw [Tab.get_put, if_pos rfl]
      · rw [to_ne _ _ hut] at hu
        have := h.holding u q hu
        rw [Tab.get_put, if_neg (fun e => by rw [e, habs] at this; cases this)]
        exact this
    · intro id
      show _ = (s.done id).foldl effect _
      rw [← h.value id]
      by_cases he : id = (J t).id
      · subst he
        rw [found_none habs, hk]
        have : (({ s with cache := s.cache.put (J t).id p } : St V).to t (.holding p)).found (J t).id = some v := by
          rw [found_cached (p := p) (by show (s.cache.put (J t).id p).get _ = _; rw [Tab.get_put, if_pos rfl])]
          exact hv
        rw [this]
        show some (plain v) = some (plain (plain w))
        rw [hvw]; rfl
      · congr 1
        unfold St.found
        show (match (s.cache.put (J t).id p).get id with | some p => _ | none => _) = _
        rw [Tab.get_put, if_neg he]
        rfl
  | change t p id f v hp hj hv =>
    have hid : (J t).id = id := by rw [hj]; rfl
    have hcp : s.cache.get id = some p := by rw [← hid]; exact h.holding t p hp
    have hc : ∀ i, (s.cache.put id p).get i = s.cache.get i := by
      intro i
      rw [Tab.get_put]
      split
      · rename_i he; rw [he, hcp]
      · rfl
    have hpc : ∀ u, (s.to t .ended).pc u = (if u = t then .ended else s.pc u) := fun _ => rfl
    have hld : ∀ u q, (s.to t .ended).pc u = .loaded q → s.pc u = .loaded q := by
      intro u q hu
      by_cases hut : u = t
      · subst hut; rw [to_self] at hu; cases hu
      · rw [to_ne _ _ hut] at hu; exact hu
    have hlo : ∀ u, ((s.to t .ended).pc u).loading = true → (s.pc u).loading = true := by
      intro u hu
      by_cases hut : u = t
      · subst hut; rw [to_self] at hu; cases hu
      · rw [to_ne _ _ hut] at hu; exact hu
    have hne : ∀ q, q ≠ p → (s.heap.set p (plain (f (plain v))))[q]? = s.heap[q]? := by
      intro q hq
      rw [List.getElem?_set_ne (Ne.symm hq)]
    refine ⟨?_, ?_, ?_, ?_, ?_, ?_, fun u w q hu hw => h.apart u w q (hld u q hu) (hld w q hw), ?_,
      fun u w hu hw => h.one u w (hlo u hu) (hlo w hw), ?_⟩
    · intro i q hq
      have hq : (s.cache.put id p).get i = some q := hq
      rw [hc] at hq
      show ∃ w, (s.heap.set p (plain (f (plain v))))[q]? = some w
      by_cases hqp : q = p
      · subst hqp; exact ⟨_, get_set_self hv⟩
      · rw [hne q hqp]; exact h.obj i q hq
    · intro a b q ha hb
      have ha : (s.cache.put id p).get a = some q := ha
      have hb : (s.cache.put id p).get b = some q := hb
      rw [hc] at ha hb
      exact h.own a b q ha hb
    · intro i q w hq hw hcm
      have hq : (s.cache.put id p).get i = some q := hq
      have hw : (s.heap.set p (plain (f (plain v))))[q]? = some w := hw
      rw [hc] at hq
      by_cases hqp : q = p
      · subst hqp; rw [get_set_self hv] at hw; cases hw; cases hcm
      · rw [hne q hqp] at hw; exact h.sync i q w hq hw hcm
    · intro u hu
      show (s.cache.put id p).get (J u).id = none
      rw [hc]
      exact h.absent u (hlo u hu)
    · intro u q hu
      have hu := hld u q hu
      obtain ⟨a, b, ha, h1, h2, h3⟩ := h.loaded u q hu
      refine ⟨a, b, ?_, h1, h2, h3⟩
      have : q ≠ p := fun e => h.new u q id hu (by rw [e]; exact hcp)
      show (s.heap.set p (plain (f (plain v))))[q]? = some a
      rw [hne q this]; exact ha
    · intro u q i hu hq
      have hq : (s.cache.put id p).get i = some q := hq
      rw [hc] at hq
      exact h.new u q i (hld u q hu) hq
    · intro u q hu
      have hu : (s.to t .ended).pc u = .holding q := hu
      show (s.cache.put id p).get (J u).id = some q
      rw [hc]
      by_cases hut : u = t
      · subst hut; rw [to_self] at hu; cases hu
      · rw [to_ne _ _ hut] at hu; exact h.holding u q hu
    · intro i
      by_cases hi : i = id
      · subst hi
        have e1 : (((({ s with heap := s.heap.set p (plain (f (plain v))), cache := s.cache.put i p } : St V).to t .ended).log (.change i f))).found i =
            some (plain (f (plain v))) := by
          rw [found_cached (p := p) (by show (s.cache.put i p).get i = _; rw [hc]; exact hcp)]
          exact get_set_self hv
        have e2 : (((({ s with heap := s.heap.set p (plain (f (plain v))), cache := s.cache.put i p } : St V).to t .ended).log (.change i f))).done i =
            s.done i ++ [.change i f] := by
          show (if i = i then _ else _) = _
          rw [if_pos rfl]; rfl
        rw [e1, e2, List.foldl_append, ← h.value i, found_cached hcp, hv]
        rfl
      · have e2 : (((({ s with heap := s.heap.set p (plain (f (plain v))), cache := s.cache.put id p } : St V).to t .ended).log (.change id f))).done i =
            s.done i := by
          show (if i = id then _ else _) = _
          rw [if_neg hi]; rfl
        rw [e2, ← h.value i]
        congr 1
        unfold St.found
        show (match (s.cache.put id p).get i with | some q => (s.heap.set p (plain (f (plain v))))[q]? | none => _) = _
        rw [hc]
        cases hq : s.cache.get i with
        | none => rfl
        | some q => exact hne q (fun e => hi (h.own i id p (by rw [hq, e]) hcp))
  | create t v hp hj hf hm =>
    have hm : ∀ u, (J u).id = v.id → (s.pc u).loading = false := hm
    have hcn : s.cache.get v.id = none := by
      cases hc : s.cache.get v.id with
      | none => rfl
      | some q =>
        obtain ⟨w, hw⟩ := h.obj _ _ hc
        rw [found_cached hc, hw] at hf; cases hf
    have hget : ∀ (q : Nat) (w : Vertex V), s.heap[q]? = some w → (s.heap ++ [plain v])[q]? = some w := by
      intro q w hq
      rw [List.getElem?_append_left (List.getElem?_eq_some_iff.mp hq).1]; exact hq
    have hback : ∀ id q, s.cache.get id = some q → (s.heap ++ [plain v])[q]? = s.heap[q]? := by
      intro id q hq
      obtain ⟨w, hw⟩ := h.obj id q hq
      rw [hget q w hw, hw]
    have hlast : (s.heap ++ [plain v])[s.heap.length]? = some (plain v) := by simp
    have hlen : ∀ id, s.cache.get id ≠ some s.heap.length := by
      intro id hq
      obtain ⟨w, hw⟩ := h.obj id _ hq
      exact Nat.lt_irrefl _ (List.getElem?_eq_some_iff.mp hw).1
    have hc : ∀ id q, (s.cache.put v.id s.heap.length).get id = some q →
        (id = v.id ∧ q = s.heap.length) ∨ (id ≠ v.id ∧ s.cache.get id = some q) := by
      intro id q hq
      rw [Tab.get_put] at hq
      split at hq
      · rename_i he; cases hq; exact .inl ⟨he, rfl⟩
      · rename_i he; exact .inr ⟨he, hq⟩
    have hld : ∀ u q, (s.to t .ended).pc u = .loaded q → s.pc u = .loaded q := by
      intro u q hu
      by_cases hut : u = t
      · subst hut; rw [to_self] at hu; cases hu
      · rw [to_ne _ _ hut] at hu; exact hu
    have hlo : ∀ u, ((s.to t .ended).pc u).loading = true → (s.pc u).loading = true := by
      intro u hu
      by_cases hut : u = t
      · subst hut; rw [to_self] at hu; cases hu
      · rw [to_ne _ _ hut] at hu; exact hu
    refine ⟨?_, ?_, ?_, ?_, ?_, ?_, fun u w q hu hw => h.apart u w q (hld u q hu) (hld w q hw), ?_,
      fun u w hu hw => h.one u w (hlo u hu) (hlo w hw), ?_⟩
    · intro id q hq
      rcases hc id q hq with ⟨rfl, rfl⟩ | ⟨_, hq⟩
      · exact ⟨_, hlast⟩
      · obtain ⟨w, hw⟩ := h.obj id q hq
        exact ⟨w, hget q w hw⟩
    · intro a b q ha hb
      rcases hc a q ha with ⟨rfl, rfl⟩ | ⟨_, ha⟩
      · rcases hc b _ hb with ⟨rfl, _⟩ | ⟨_, hb⟩
        · rfl
        · exact absurd hb (hlen b)
      · rcases hc b _ hb with ⟨rfl, rfl⟩ | ⟨_, hb⟩
        · exact absurd ha (hlen a)
        · exact h.own a b q ha hb
    · intro id q w hq hw hcm
      have hw : (s.heap ++ [plain v])[q]? = some w := hw
      rcases hc id q hq with ⟨rfl, rfl⟩ | ⟨_, hq⟩
      · rw [hlast] at hw; cases hw; cases hcm
      · rw [hback id q hq] at hw
        exact h.sync id q w hq hw hcm
    · intro u hu
      have hu := hlo u hu
      show (s.cache.put v.id s.heap.length).get (J u).id = none
      rw [Tab.get_put, if_neg (fun e => by rw [hm u e] at hu; cases hu)]
      exact h.absent u hu
    · intro u q hu
      obtain ⟨a, b, ha, h1, h2, h3⟩ := h.loaded u q (hld u q hu)
      exact ⟨a, b, hget q a ha, h1, h2, h3⟩
    · intro u q id hu hq
      have hu := hld u q hu
      rcases hc id q hq with ⟨rfl, rfl⟩ | ⟨_, hq⟩
      · obtain ⟨a, _, ha, _⟩ := h.loaded u _ hu
        exact Nat.lt_irrefl _ (List.getElem?_eq_some_iff.mp ha).1
      · exact h.new u q id hu hq
    · intro u q hu
      have hu : (s.to t .ended).pc u = .holding q := hu
      show (s.cache.put v.id s.heap.length).get (J u).id = some q
      by_cases hut : u = t
      · subst hut; rw [to_self] at hu; cases hu
      · rw [to_ne _ _ hut] at hu
        have := h.holding u q hu
        rw [Tab.get_put, if_neg (fun e => by rw [e, hcn] at this; cases this)]
        exact this
    · intro i
      by_cases hi : i = v.id
      · subst hi
        have e1 : (((({ s with heap := s.heap ++ [plain v], cache := s.cache.put v.id s.heap.length } : St V).to t .ended).log (.create v))).found v.id =
            some (plain v) := by
          rw [found_cached (p := s.heap.length) (by show (s.cache.put v.id s.heap.length).get v.id = _; rw [Tab.get_put, if_pos rfl])]
          exact hlast
        have e2 : (((({ s with heap := s.heap ++ [plain v], cache := s.cache.put v.id s.heap.length } : St V).to t .ended).log (.create v))).done v.id =
            s.done v.id ++ [.create v] := by
          show (if v.id = v.id then _ else _) = _
          rw [if_pos rfl]; rfl
        rw [e1, e2, List.foldl_append]
        rfl
      · have e2 : (((({ s with heap := s.heap ++ [plain v], cache := s.cache.put v.id s.heap.length } : St V).to t .ended).log (.create v))).done i =
            s.done i := by
          show (if i = v.id then _ else _) = _
          rw [if_neg hi]; rfl
        rw [e2, ← h.value i]
        congr 1
        unfold St.found
        show (match (s.cache.put v.id s.heap.length).get i with | some q => (s.heap ++ [plain v])[q]? | none => _) = _
        rw [Tab.get_put, if_neg hi]
        cases hq : s.cache.get i with
        | none => rfl
        | some q => exact hback i q hq
  | save id p v hcp hv hvc =>
    have hne : ∀ q, q ≠ p → (s.heap.set p { v with committed := true })[q]? = s.heap[q]? := by
      intro q hq
      rw [List.getElem?_set_ne (Ne.symm hq)]
    refine ⟨?_, h.own, ?_, h.absent, ?_, h.new, h.apart, h.holding, h.one, ?_⟩
    · intro i q hq
      show ∃ w, (s.heap.set p { v with committed := true })[q]? = some w
      by_cases hqp : q = p
      · subst hqp; exact ⟨_, get_set_self hv⟩
      · rw [hne q hqp]; exact h.obj i q hq
    · intro i q w hq hw hcm
      have hq : s.cache.get i = some q := hq
      have hw : (s.heap.set p { v with committed := true })[q]? = some w := hw
      show (s.kv.put id (plain v)).get i = _
      by_cases hqp : q = p
      · subst hqp
        rw [get_set_self hv] at hw; cases hw
        rw [h.own i id _ hq hcp, Tab.get_put, if_pos rfl]; rfl
      · rw [hne q hqp] at hw
        rw [Tab.get_put, if_neg (fun e => hqp (by rw [e, hcp] at hq; cases hq; rfl))]
        exact h.sync i q w hq hw hcm
    · intro u q hu
      have hu : s.pc u = .loaded q := hu
      obtain ⟨a, b, ha, h1, h2, h3⟩ := h.loaded u q hu
      refine ⟨a, b, ?_, h1, ?_, h3⟩
      · have : q ≠ p := fun e => h.new u q id hu (by rw [e]; exact hcp)
        show (s.heap.set p _)[q]? = some a
        rw [hne q this]; exact ha
      · show (s.kv.put id (plain v)).get (J u).id = some b
        have := h.absent u (by rw [hu]; rfl)
        rw [Tab.get_put, if_neg (fun e => by rw [e, hcp] at this; cases this)]
        exact h2
    · intro i
      show _ = (s.done i).foldl effect _
      rw [← h.value i]
      unfold St.found
      dsimp only
      cases hq : s.cache.get i with
      | none =>
        dsimp only
        rw [Tab.get_put, if_neg (fun e => by rw [e, hcp] at hq; cases hq)]
      | some q =>
        dsimp only
        by_cases hqp : q = p
        · subst hqp; rw [get_set_self hv, hv]; rfl
        · rw [hne q hqp]
  | restart _ hq hall =>
    have hn : ∀ t, (s.pc t).active = false → (s.pc t).loading = false := by
      intro t ht
      cases hp : s.pc t <;> rw [hp] at ht <;> first | rfl | cases ht
    refine ⟨fun _ _ hc => (by cases hc), fun _ _ _ hc => (by cases hc), fun _ _ _ hc => (by cases hc), fun t ht => rfl, ?_, ?_, ?_, ?_, ?_, ?_⟩
    · intro t p hp
      have hp : s.pc t = .loaded p := hp
      have := hq t; rw [hp] at this; cases this
    · intro t p id hp
      have hp : s.pc t = .loaded p := hp
      have := hq t; rw [hp] at this; cases this
    · intro t u p hp
      have hp : s.pc t = .loaded p := hp
      have := hq t; rw [hp] at this; cases this
    · intro t p hp
      have hp : s.pc t = .holding p := hp
      have := hq t; rw [hp] at this; cases this
    · intro t u ht
      have ht : (s.pc t).loading = true := ht
      rw [hn t (hq t)] at ht; cases ht
    · intro i
      show ((s.kv.get i).map plain).map plain = (s.done i).foldl effect _
      rw [← h.value i, map_plain]
      cases hc : s.cache.get i with
      | none => rw [found_none hc, map_plain]
      | some p =>
        obtain ⟨v, hv⟩ := h.obj i p hc
        rw [found_cached hc, hv, h.sync i p v hc hv (hall i p v hc hv)]
        rfl

theorem inv_reach (h0 : Clean s0) (h : Reach J (single J) s0 s) : Inv J s0 s := by
  induction h with
  | refl => exact inv_clean h0
  | step _ hst ih => exact inv_step ih hst

/-- Everything cached at the beginning, look-ups only of vertices that are there: no look-up misses. -/
theorem present_reach (h0 : Clean s0) (hw : ∀ id, s0.kv.get id ≠ none → s0.cache.get id ≠ none) (h : Reach J present s0 s) :
    Reach J (single J) s0 s ∧ (∀ t, (s.pc t).loading = false) ∧ ∀ id, s.kv.get id ≠ none → s.cache.get id ≠ none := by
  induction h with
  | refl => exact ⟨.refl, fun t => by rw [h0.idle]; rfl, hw⟩
  | @step s s' _ hst ih =>
    obtain ⟨hr, hl, hk⟩ := ih
    have hto : ∀ t p, p.loading = false → ∀ u, ((s.to t p).pc u).loading = false := by
      intro t p hp u
      by_cases hut : u = t
      · subst hut; rw [to_self]; exact hp
      · rw [to_ne _ _ hut]; exact hl u
    have hput : ∀ k p id, s.cache.get id ≠ none → (s.cache.put k p).get id ≠ none := by
      intro k p id hid
      rw [Tab.get_put]
      split
      · simp
      · exact hid
    cases hst with
    | hit t p hp hj hc => exact ⟨hr.step (.hit t p hp hj hc), hto t _ rfl, hk⟩
    | miss t hp hj hc hm =>
      exfalso
      have hm : s.found (J t).id ≠ none := hm
      rw [found_none hc] at hm
      exact hk (J t).id (fun e => hm (by rw [e]; rfl)) hc
    | load t v hp hkv => have := hl t; rw [hp] at this; cases this
    | absent t hp hkv => have := hl t; rw [hp] at this; cases this
    | add t p hp => have := hl t; rw [hp] at this; cases this
    | look t p id hp hj => exact ⟨hr.step (.look t p id hp hj), hto t _ rfl, hk⟩
    | change t p id f v hp hj hv => exact ⟨hr.step (.change t p id f v hp hj hv), hto t _ rfl, fun i hi => hput _ _ i (hk i hi)⟩
    | create t v hp hj hf hm => exact ⟨hr.step (.create t v hp hj hf (fun u _ => hl u)), hto t _ rfl, fun i hi => hput _ _ i (hk i hi)⟩
    | save id p v hcp hv hvc =>
      refine ⟨hr.step (.save id p v hcp hv hvc), hl, ?_⟩
      intro i hi
      have hi : (s.kv.put id (plain v)).get i ≠ none := hi
      show s.cache.get i ≠ none
      rw [Tab.get_put] at hi
      split at hi
      · rename_i he; rw [he, hcp]; simp
      · exact hk i hi
    | restart hm _ _ => exact hm.elim

end Fave.Load
