import Verif.Lemmas.Lru
/-!
# What a flush puts into the table
-/
namespace Fave.Lru
variable {α : Type}

theorem putsGo_last {cap : Nat} (p b : List (Ent α)) (kv : Tab α) (hcap : (b ++ p).length ≤ cap) (hnd : ((b ++ p).map Ent.key).Nodup) :
    putsGo cap (p.map Ent.key).reverse ⟨b ++ p, kv⟩ = ((p.filter (fun e => !e.committed)).map (fun e => (e.key, e.val))).reverse := by
  induction hn : p.length generalizing p b kv with
  | zero =>
    obtain rfl : p = [] := List.eq_nil_of_length_eq_zero hn
    rfl
  | succ n ih =>
    obtain ⟨p, e, rfl⟩ : ∃ p' e, p = p' ++ [e] := by
      rcases List.eq_nil_or_concat p with rfl | ⟨p', e, h⟩
      · simp at hn
      · exact ⟨p', e, by simpa using h⟩
    have hnd' : ((b ++ p ++ [e]).map Ent.key).Nodup := by simpa [List.append_assoc] using hnd
    have hne : e.key ∉ (b ++ p).map Ent.key := by
      have := hnd'
      rw [List.map_append, List.nodup_append] at this
      intro hm
      exact this.2.2 e.key hm e.key (by simp) rfl
    have hl : lookup ⟨b ++ p ++ [e], kv⟩ e.key = some e := by
      unfold lookup
      simp only
      rw [List.find?_append, List.find?_eq_none.mpr]
      · simp
      · intro x hx hk
        simp only [decide_eq_true_eq] at hk
        exact hne (hk ▸ List.mem_map_of_mem hx)
    have hput : putOf (⟨b ++ p ++ [e], kv⟩ : Store α) e.key = if e.committed then [] else [(e.key, e.val)] := by
      unfold putOf
      rw [hl]
    rw [List.map_append, List.reverse_append, List.map_singleton, List.reverse_singleton, List.singleton_append, putsGo,
      ← List.append_assoc, hput, flushKey_last (by simpa [List.append_assoc] using hcap) hnd', ← List.cons_append,
      ih _ _ _ ?_ ?_ (by simpa using hn)]
    · rw [List.filter_append, List.map_append, List.reverse_append]
      cases hc : e.committed <;> simp [hc]
    · simp only [List.length_append, List.length_cons, List.length_nil] at hcap ⊢; omega
    · have : ((done e :: b ++ p).map Ent.key).Perm ((b ++ (p ++ [e])).map Ent.key) := by
        have hk : (done e).key = e.key := rfl
        simp only [List.cons_append, List.map_cons, List.map_append, hk, List.map_nil]
        rw [← List.append_assoc]
        exact (List.perm_append_singleton _ _).symm
      exact this.nodup_iff.mpr hnd

/-- a flush puts the entries that are not committed, oldest first -/
theorem puts_eq {cap : Nat} {s : Store α} (h : Ok cap s) :
    puts cap s = ((s.ents.filter (fun e => !e.committed)).map (fun e => (e.key, e.val))).reverse :=
  putsGo_last s.ents [] s.kv (by simpa using h.size) (by simpa using (show (s.ents.map Ent.key).Nodup from h.nodup))

theorem lookup_mem {s : Store α} (hnd : (ckeys s).Nodup) {e : Ent α} (h : e ∈ s.ents) : lookup s e.key = some e := by
  unfold ckeys at hnd
  unfold lookup
  generalize s.ents = l at hnd h
  induction l with
  | nil => cases h
  | cons x l ih =>
    rw [List.map_cons, List.nodup_cons] at hnd
    rcases List.mem_cons.mp h with rfl | h
    · rw [List.find?_cons_of_pos (by simp)]
    · rw [List.find?_cons_of_neg, ih hnd.2 h]
      simp only [decide_eq_true_eq]
      exact fun he => hnd.1 (he ▸ List.mem_map_of_mem h)

theorem mem_puts {cap : Nat} {s : Store α} (h : Ok cap s) (k : Nat) (a : α) : (k, a) ∈ puts cap s ↔ lookup s k = some ⟨k, a, false⟩ := by
  rw [puts_eq h, List.mem_reverse, List.mem_map]
  constructor
  · rintro ⟨e, he, hk⟩
    obtain ⟨he, hc⟩ := List.mem_filter.mp he
    have := lookup_mem h.nodup he
    obtain ⟨rfl, rfl⟩ := Prod.mk.inj hk
    rw [this]
    cases e with
    | mk a b c => simp at hc; rw [hc]
  · intro hl
    obtain ⟨hm, _⟩ := lookup_some hl
    exact ⟨_, List.mem_filter.mpr ⟨hm, rfl⟩, rfl⟩

theorem puts_nodup {cap : Nat} {s : Store α} (h : Ok cap s) : ((puts cap s).map Prod.fst).Nodup := by
  rw [puts_eq h, List.map_reverse, (List.reverse_perm _).nodup_iff, List.map_map]
  have : (Prod.fst ∘ fun e : Ent α => (e.key, e.val)) = Ent.key := rfl
  rw [this]
  exact List.Nodup.sublist (List.Sublist.map _ List.filter_sublist) h.nodup

theorem lookup_push {cap : Nat} {s : Store α} {e : Ent α} (h : (push cap s e).ents = e :: s.ents.filter (fun x => x.key ≠ e.key)) (k : Nat) :
    lookup (push cap s e) k = if k = e.key then some e else lookup s k := by
  unfold lookup
  rw [h]
  by_cases hk : k = e.key
  · rw [List.find?_cons_of_pos (by simp [hk]), if_pos hk]
  · rw [List.find?_cons_of_neg (by simpa using fun h => hk h.symm), find_filter_ne hk, if_neg hk]

theorem lookup_done (l : List (Ent α)) (kv kv' : Tab α) (k : Nat) : lookup ⟨l.map done, kv'⟩ k = (lookup ⟨l, kv⟩ k).map done := by
  unfold lookup
  simp only [List.find?_map]
  rfl

end Fave.Lru
