import Verif.Model.Url
/-!
# Lemmas about addresses
-/
namespace Fave.Url

/-- a statement about all bytes -/
theorem all_bytes {P : UInt8 → Prop} (h : ∀ n : Fin 256, P (UInt8.ofFin n)) (c : UInt8) : P c := h c.toFin

theorem unhex_high (c : UInt8) : unhex (hex (c / 16)) = some (c / 16) := by
  revert c; exact all_bytes (by decide +kernel)

theorem unhex_low (c : UInt8) : unhex (hex (c % 16)) = some (c % 16) := by
  revert c; exact all_bytes (by decide +kernel)

theorem high_low (c : UInt8) : c / 16 * 16 + c % 16 = c := by
  revert c; exact all_bytes (by decide +kernel)

theorem hex_unreserved (c : UInt8) : (unreserved (hex (c / 16)) && unreserved (hex (c % 16))) = true := by
  revert c; exact all_bytes (by decide +kernel)

theorem valid_of_pathOk {c : UInt8} (h : pathOk c = true) : validByte c = true := by unfold validByte; rw [h]; rfl

theorem unescape_percent (q : Bool) (c : UInt8) (s : Bytes) : unescape q (percent c ++ s) = (unescape q s).map (c :: ·) := by
  show unescape q (b '%' :: hex (c / 16) :: hex (c % 16) :: s) = _
  conv => lhs; unfold unescape
  rw [if_pos rfl]
  simp only [unhex_high, unhex_low, high_low]

theorem unescape_plain {q : Bool} {c : UInt8} (s : Bytes) (h : c ≠ b '%') (h' : q = true → c ≠ b '+') :
    unescape q (c :: s) = (unescape q s).map (c :: ·) := by
  conv => lhs; unfold unescape
  rw [if_neg h]
  cases q with
  | false => rfl
  | true => simp [h' rfl]

theorem unescape_escape (ok : UInt8 → Bool) (h : ok (b '%') = false) (s : Bytes) : unescape false (escape ok s) = some s := by
  induction s with
  | nil => rfl
  | cons c s ih =>
    unfold escape
    by_cases hc : ok c = true
    · rw [if_pos hc]
      show unescape false (c :: escape ok s) = _
      rw [unescape_plain _ (by rintro rfl; rw [h] at hc; cases hc) (by intro h; cases h), ih]; rfl
    · rw [if_neg hc, unescape_percent, ih]; rfl

theorem unescape_query (s : Bytes) : unescape true (queryEscape s) = some s := by
  induction s with
  | nil => rfl
  | cons c s ih =>
    unfold queryEscape
    by_cases hb : c = b ' '
    · subst hb
      rw [if_pos rfl]
      show unescape true (b '+' :: queryEscape s) = _
      conv => lhs; unfold unescape
      rw [if_neg (by decide), ih]; rfl
    · rw [if_neg hb]
      by_cases hc : unreserved c = true
      · rw [if_pos hc]
        show unescape true (c :: queryEscape s) = _
        rw [unescape_plain _ (by rintro rfl; exact absurd hc (by decide)) (by rintro _ rfl; exact absurd hc (by decide)), ih]; rfl
      · rw [if_neg hc, unescape_percent, ih]; rfl

/-- the bytes of an escaped string -/
theorem mem_escape {ok : UInt8 → Bool} {s : Bytes} {x : UInt8} (h : x ∈ escape ok s) : ok x = true ∨ x = b '%' ∨ unreserved x = true := by
  induction s with
  | nil => cases h
  | cons c s ih =>
    unfold escape at h
    rcases List.mem_append.1 h with h | h
    · by_cases hc : ok c = true
      · rw [if_pos hc] at h
        rcases List.mem_singleton.1 h with rfl
        exact .inl hc
      · rw [if_neg hc] at h
        have := hex_unreserved c
        rw [Bool.and_eq_true] at this
        unfold percent at h
        rcases List.mem_cons.1 h with rfl | h
        · exact .inr (.inl rfl)
        · rcases List.mem_cons.1 h with rfl | h
          · exact .inr (.inr this.1)
          · rcases List.mem_singleton.1 h with rfl
            exact .inr (.inr this.2)
    · exact ih h

theorem mem_queryEscape {s : Bytes} {x : UInt8} (h : x ∈ queryEscape s) : x = b '+' ∨ x = b '%' ∨ unreserved x = true := by
  induction s with
  | nil => cases h
  | cons c s ih =>
    unfold queryEscape at h
    rcases List.mem_append.1 h with h | h
    · by_cases hb : c = b ' '
      · rw [if_pos hb] at h
        exact .inl (List.mem_singleton.1 h)
      · rw [if_neg hb] at h
        by_cases hc : unreserved c = true
        · rw [if_pos hc] at h
          rcases List.mem_singleton.1 h with rfl
          exact .inr (.inr hc)
        · rw [if_neg hc] at h
          have := hex_unreserved c
          rw [Bool.and_eq_true] at this
          unfold percent at h
          rcases List.mem_cons.1 h with rfl | h
          · exact .inr (.inl rfl)
          · rcases List.mem_cons.1 h with rfl | h
            · exact .inr (.inr this.1)
            · rcases List.mem_singleton.1 h with rfl
              exact .inr (.inr this.2)
    · exact ih h

theorem escape_ne_nil {ok : UInt8 → Bool} {s : Bytes} (h : s ≠ []) : escape ok s ≠ [] := by
  cases s with
  | nil => exact absurd rfl h
  | cons c s =>
    unfold escape
    by_cases hc : ok c = true
    · rw [if_pos hc]; simp
    · rw [if_neg hc]; simp [percent]

theorem escape_append (ok : UInt8 → Bool) (s t : Bytes) : escape ok (s ++ t) = escape ok s ++ escape ok t := by
  induction s with
  | nil => rfl
  | cons c s ih => show (_ ++ escape ok (s ++ t)) = (_ ++ escape ok s) ++ _; rw [ih, List.append_assoc]

theorem escape_cons {ok : UInt8 → Bool} {c : UInt8} (h : ok c = true) (s : Bytes) : escape ok (c :: s) = c :: escape ok s := by
  conv => lhs; unfold escape
  rw [if_pos h]; rfl

/-! ### pieces -/

theorem split_ne_nil (c : UInt8) (s : Bytes) : split c s ≠ [] := by
  cases s with
  | nil => simp [split]
  | cons x s =>
    unfold split
    by_cases h : x = c
    · rw [if_pos h]; simp
    · rw [if_neg h]
      cases split c s <;> simp

theorem split_append {c : UInt8} {s : Bytes} (h : c ∉ s) (t : Bytes) : split c (s ++ c :: t) = s :: split c t := by
  induction s with
  | nil => show split c (c :: t) = _; conv => lhs; unfold split
           rw [if_pos rfl]
  | cons x s ih =>
    have hx : x ≠ c := by rintro rfl; exact h (List.mem_cons_self)
    show split c (x :: (s ++ c :: t)) = _
    conv => lhs; unfold split
    rw [if_neg hx, ih (fun h' => h (List.mem_cons_of_mem _ h'))]

theorem split_plain {c : UInt8} {s : Bytes} (h : c ∉ s) : split c s = [s] := by
  induction s with
  | nil => rfl
  | cons x s ih =>
    have hx : x ≠ c := by rintro rfl; exact h (List.mem_cons_self)
    unfold split
    rw [if_neg hx, ih (fun h' => h (List.mem_cons_of_mem _ h'))]

theorem mem_split {c : UInt8} {s p : Bytes} (h : p ∈ split c s) : c ∉ p := by
  induction s generalizing p with
  | nil => rcases List.mem_singleton.1 h with rfl; simp
  | cons x s ih =>
    unfold split at h
    by_cases hx : x = c
    · rw [if_pos hx] at h
      rcases List.mem_cons.1 h with rfl | h
      · simp
      · exact ih h
    · rw [if_neg hx] at h
      cases hs : split c s with
      | nil => exact absurd hs (split_ne_nil _ _)
      | cons q qs =>
        rw [hs] at h ih
        rcases List.mem_cons.1 h with rfl | h
        · intro hm
          rcases List.mem_cons.1 hm with rfl | hm
          · exact hx rfl
          · exact ih (List.mem_cons_self) hm
        · exact ih (List.mem_cons_of_mem _ h)

theorem split_slashed {l : List Bytes} (h : ∀ p ∈ l, b '/' ∉ p) (hl : l ≠ []) : split (b '/') (slashed l) = l := by
  induction l with
  | nil => exact absurd rfl hl
  | cons p l ih =>
    cases l with
    | nil => exact split_plain (h p (List.mem_cons_self))
    | cons q l =>
      show split (b '/') (p ++ b '/' :: slashed (q :: l)) = _
      rw [split_append (h p (List.mem_cons_self)), ih (fun x hx => h x (List.mem_cons_of_mem _ hx)) (by simp)]

theorem cut_append {c : UInt8} {s : Bytes} (h : c ∉ s) (t : Bytes) : cut c (s ++ c :: t) = (s, t) := by
  induction s with
  | nil => show cut c (c :: t) = _; unfold cut; rw [if_pos rfl]
  | cons x s ih =>
    have hx : x ≠ c := by rintro rfl; exact h (List.mem_cons_self)
    show cut c (x :: (s ++ c :: t)) = _
    unfold cut
    rw [if_neg hx, ih (fun h' => h (List.mem_cons_of_mem _ h'))]

theorem cut_plain {c : UInt8} {s : Bytes} (h : c ∉ s) : cut c s = (s, []) := by
  induction s with
  | nil => rfl
  | cons x s ih =>
    have hx : x ≠ c := by rintro rfl; exact h (List.mem_cons_self)
    unfold cut
    rw [if_neg hx, ih (fun h' => h (List.mem_cons_of_mem _ h'))]

/-! ### clean paths -/

/-- a piece that cleaning leaves alone -/
def Proper (p : Bytes) : Prop := p ≠ [] ∧ p ≠ str ['.'] ∧ p ≠ str ['.', '.'] ∧ b '/' ∉ p

theorem cleanPieces_proper {out l : List Bytes} (h : ∀ p ∈ l, Proper p) : cleanPieces true out l = out.reverse ++ l := by
  induction l generalizing out with
  | nil => unfold cleanPieces; simp
  | cons p l ih =>
    obtain ⟨h1, h2, h3, _⟩ := h p (List.mem_cons_self)
    unfold cleanPieces
    rw [if_neg (by rintro (h | h); exact h1 h; exact h2 h), if_neg h3, ih (fun x hx => h x (List.mem_cons_of_mem _ hx))]
    simp

/-- what is kept is proper -/
theorem cleanPieces_mem {out l : List Bytes} (ho : ∀ p ∈ out, Proper p) (hl : ∀ p ∈ l, b '/' ∉ p) :
    ∀ p ∈ cleanPieces true out l, Proper p := by
  induction l generalizing out with
  | nil => unfold cleanPieces; intro p hp; exact ho p (List.mem_reverse.1 hp)
  | cons q l ih =>
    have hl' : ∀ p ∈ l, b '/' ∉ p := fun p hp => hl p (List.mem_cons_of_mem _ hp)
    unfold cleanPieces
    by_cases h1 : q = [] ∨ q = str ['.']
    · rw [if_pos h1]; exact ih ho hl'
    · rw [if_neg h1]
      by_cases h2 : q = str ['.', '.']
      · rw [if_pos h2]
        cases out with
        | nil => exact ih (by intro p hp; cases hp) hl'
        | cons r out =>
          have := (ho r (List.mem_cons_self)).2.2.1
          simp only [if_neg this]
          exact ih (fun p hp => ho p (List.mem_cons_of_mem _ hp)) hl'
      · rw [if_neg h2]
        refine ih ?_ hl'
        intro p hp
        rcases List.mem_cons.1 hp with rfl | hp
        · exact ⟨fun h => h1 (.inl h), fun h => h1 (.inr h), h2, hl p (List.mem_cons_self)⟩
        · exact ho p hp

/-- the pieces of a rooted path -/
theorem pieces_rooted (s : Bytes) : split (b '/') (b '/' :: s) = [] :: split (b '/') s := by
  conv => lhs; unfold split
  rw [if_pos rfl]

theorem clean_rooted (s : Bytes) : clean (b '/' :: s) = b '/' :: slashed (cleanPieces true [] (split (b '/') s)) := by
  unfold clean
  rw [if_pos (show (b '/' :: s).head? = some (b '/') from rfl), pieces_rooted]
  rfl

/-- a path of proper pieces is clean -/
theorem clean_proper {l : List Bytes} (h : ∀ p ∈ l, Proper p) : clean (b '/' :: slashed l) = b '/' :: slashed l := by
  rw [clean_rooted]
  cases l with
  | nil => rfl
  | cons p l => rw [split_slashed (fun x hx => (h x hx).2.2.2) (by simp), cleanPieces_proper h]; rfl

theorem escape_slashed {ok : UInt8 → Bool} (hs : ok (b '/') = true) (l : List Bytes) :
    escape ok (slashed l) = slashed (l.map (escape ok)) := by
  induction l with
  | nil => rfl
  | cons p l ih =>
    cases l with
    | nil => rfl
    | cons q l =>
      show escape ok (p ++ b '/' :: slashed (q :: l)) = _
      rw [escape_append, escape_cons hs, ih]; rfl

/-- a single or a double dot is no escape of anything else -/
theorem escape_dots {ok : UInt8 → Bool} (h : ok (b '%') = false) {p d : Bytes} (hd : unescape false d = some d) (he : escape ok p = d) : p = d := by
  have := unescape_escape ok h p
  rw [he, hd] at this
  exact (Option.some.inj this).symm

theorem pathOk_slash {p : Bytes} (h : b '/' ∉ p) : b '/' ∉ escape pathOk p := by
  induction p with
  | nil => simp [escape]
  | cons c p ih =>
    unfold escape
    intro hm
    rcases List.mem_append.1 hm with hm | hm
    · by_cases hc : pathOk c = true
      · rw [if_pos hc] at hm
        rw [List.mem_singleton.1 hm] at h
        exact h (List.mem_cons_self)
      · rw [if_neg hc] at hm
        have := hex_unreserved c
        rw [Bool.and_eq_true] at this
        unfold percent at hm
        rcases List.mem_cons.1 hm with hm | hm
        · exact absurd hm (by decide)
        · rcases List.mem_cons.1 hm with hm | hm
          · rw [← hm] at this; exact absurd this.1 (by decide)
          · rw [← List.mem_singleton.1 hm] at this; exact absurd this.2 (by decide)
    · exact ih (fun h' => h (List.mem_cons_of_mem _ h')) hm

theorem Proper.escape {p : Bytes} (h : Proper p) : Proper (escape pathOk p) :=
  ⟨escape_ne_nil h.1, fun he => h.2.1 (escape_dots (by decide) (by decide) he),
    fun he => h.2.2.1 (escape_dots (by decide) (by decide) he), pathOk_slash h.2.2.2⟩

theorem escapedPath_escape (q : Bytes) : escapedPath (escape pathOk q) = some (escape pathOk q) := by
  unfold escapedPath
  rw [unescape_escape _ (by decide)]
  simp

theorem no_quest (q : Bytes) : b '?' ∉ escape pathOk q := by
  intro h
  rcases mem_escape h with h | h | h <;> exact absurd h (by decide)

/-- how the server reads a path of proper pieces -/
theorem serve_path {l : List Bytes} (h : ∀ p ∈ l, Proper p) (hl : l ≠ []) (m : Method) (q : Bytes) :
    serve m (escape pathOk (b '/' :: slashed l) ++ (if q = [] then [] else b '?' :: q)) = route m ([] :: l.map (escape pathOk)) q := by
  have e : escape pathOk (b '/' :: slashed l) = b '/' :: slashed (l.map (escape pathOk)) := by
    rw [escape_cons (by decide), escape_slashed (by decide)]
  have c : cut (b '?') (escape pathOk (b '/' :: slashed l) ++ (if q = [] then [] else b '?' :: q)) =
      (escape pathOk (b '/' :: slashed l), q) := by
    by_cases hq : q = []
    · rw [if_pos hq, List.append_nil, cut_plain (no_quest _), hq]
    · rw [if_neg hq, cut_append (no_quest _)]
  unfold serve
  simp only [c, escapedPath_escape]
  have hp : ∀ p ∈ l.map (escape pathOk), Proper p := by
    intro p hp
    obtain ⟨p', hp', rfl⟩ := List.mem_map.1 hp
    exact (h p' hp').escape
  rw [e, clean_proper hp, pieces_rooted, split_slashed (fun x hx => (hp x hx).2.2.2) (by simpa using hl)]

end Fave.Url
