import Verif.Lemmas.Url
/-!
# From the builder to the operation
-/
namespace Fave.Url

abbrev v1 : Bytes := str ['v', '1']
abbrev colls : Bytes := str "collections".toList

/-- the pieces of the path that the builder of deletions makes -/
def landing (n : Bytes) : List Bytes := cleanPieces true [colls, v1] (split (b '/') n)

theorem proper_v1 : Proper v1 := by unfold Proper; decide +kernel

theorem proper_colls : Proper colls := by unfold Proper; decide +kernel

theorem landing_proper (n : Bytes) : ∀ p ∈ landing n, Proper p := by
  refine cleanPieces_mem ?_ (fun p hp => mem_split hp)
  intro p hp
  rcases List.mem_cons.1 hp with rfl | hp
  · exact proper_colls
  · rcases List.mem_singleton.1 hp with rfl; exact proper_v1

theorem join_delete (n : Bytes) : join (str ['/', 'v', '1']) (b '/' :: (colls ++ b '/' :: n)) = b '/' :: slashed (landing n) := by
  show clean (b '/' :: (v1 ++ b '/' :: ([] ++ b '/' :: (colls ++ b '/' :: n)))) = _
  rw [clean_rooted, split_append (s := v1) (by decide +kernel), split_append (s := []) (by simp), split_append (s := colls) (by decide +kernel)]
  congr 2

theorem build_delete {n : Bytes} (hn : n ≠ []) : build [] (.delete n) = some (escape pathOk (b '/' :: slashed (landing n))) := by
  unfold build Op.path
  simp only [if_neg hn]
  show some (escape pathOk (join (str ['/', 'v', '1']) (b '/' :: (colls ++ b '/' :: n))) ++ []) = _
  rw [join_delete, List.append_nil]

/-- where a deletion by the builder's address ends -/
theorem serve_landing (n : Bytes) :
    serve .delete (escape pathOk (b '/' :: slashed (landing n))) =
      (match landing n with
       | [v, c, m] => if v = v1 ∧ c = colls then .ok (.delete m) else .error .notFound
       | _ => .error .notFound) := by
  have hp := landing_proper n
  generalize hL : landing n = L at hp
  match L with
  | [] => decide +kernel
  | [a] =>
    have := serve_path (l := [a]) hp (by simp) .delete []
    simp only [List.append_nil, if_pos] at this
    rw [this]; rfl
  | [a, c] =>
    have := serve_path (l := [a, c]) hp (by simp) .delete []
    simp only [List.append_nil, if_pos] at this
    rw [this]; rfl
  | [v, c, m] =>
    have := serve_path (l := [v, c, m]) hp (by simp) .delete []
    simp only [List.append_nil, if_pos] at this
    rw [this]
    show (if _ ∧ escape pathOk v = v1 ∧ escape pathOk c = colls then Served.ok (.delete ((unescape false (escape pathOk m)).getD (escape pathOk m)))
      else .error .notFound) = _
    rw [unescape_escape _ (by decide)]
    have e : ∀ {p d : Bytes}, escape pathOk d = d → unescape false d = some d → (escape pathOk p = d ↔ p = d) := by
      intro p d h1 h2
      exact ⟨escape_dots (by decide) h2, fun h => by rw [h, h1]⟩
    simp only [e (p := v) (d := v1) (by decide +kernel) (by decide +kernel),
      e (p := c) (d := colls) (by decide +kernel) (by decide +kernel), true_and]
    rfl
  | v :: c :: m :: r :: l =>
    have := serve_path (l := v :: c :: m :: r :: l) hp (by simp) .delete []
    simp only [List.append_nil, if_pos] at this
    rw [this]; rfl

/-- the third piece comes from the name -/
theorem third_of_name {out : List Bytes} {l N : List Bytes} (hl : ∀ p ∈ l, p ∈ N) (ho : ∀ p ∈ out.reverse.drop 2, p ∈ N) :
    ∀ p ∈ (cleanPieces true out l).drop 2, p ∈ N := by
  induction l generalizing out with
  | nil => unfold cleanPieces; exact ho
  | cons q l ih =>
    have hl' : ∀ p ∈ l, p ∈ N := fun p hp => hl p (List.mem_cons_of_mem _ hp)
    have push : ∀ p ∈ (q :: out).reverse.drop 2, p ∈ N := by
      intro p hp
      rw [List.reverse_cons, List.drop_append] at hp
      rcases List.mem_append.1 hp with hp | hp
      · exact ho p hp
      · rcases List.mem_singleton.1 (List.mem_of_mem_drop hp) with rfl
        exact hl _ (List.mem_cons_self)
    unfold cleanPieces
    by_cases h1 : q = [] ∨ q = str ['.']
    · rw [if_pos h1]; exact ih hl' ho
    · rw [if_neg h1]
      by_cases h2 : q = str ['.', '.']
      · rw [if_pos h2]
        cases out with
        | nil => exact ih hl' (by simp)
        | cons r out =>
          refine ih hl' ?_
          by_cases h3 : r = str ['.', '.']
          · rw [if_pos h3]; exact push
          · rw [if_neg h3]
            intro p hp
            refine ho p ?_
            rw [List.reverse_cons, List.drop_append]
            exact List.mem_append_left _ hp
      · rw [if_neg h2]; exact ih hl' push

/-! ### the query -/

theorem query_clean {s : Bytes} : b '&' ∉ queryEscape s ∧ b '=' ∉ queryEscape s ∧ b ';' ∉ queryEscape s := by
  refine ⟨?_, ?_, ?_⟩ <;> intro h <;> rcases mem_queryEscape h with h | h | h <;> exact absurd h (by decide)

theorem queryEscape_ne_nil {s : Bytes} (h : s ≠ []) : queryEscape s ≠ [] := by
  intro h'
  have := unescape_query s
  rw [h'] at this
  exact h (Option.some.inj this).symm

/-- a pair as it is read -/
def pair (kv : Bytes) : Option (Bytes × Bytes) :=
  if kv = [] ∨ (kv.contains (b ';')) then none
  else
    let r := cut (b '=') kv
    match unescape true r.1, unescape true r.2 with
    | some k, some v => some (k, v)
    | _, _ => none

theorem pair_escape (k v : Bytes) : pair (queryEscape k ++ b '=' :: queryEscape v) = some (k, v) := by
  unfold pair
  rw [if_neg, cut_append query_clean.2.1]
  · simp only [unescape_query]
  · rintro (h | h)
    · simp at h
    · rw [List.contains_iff_mem] at h
      rcases List.mem_append.1 h with h | h
      · exact query_clean.2.2 h
      · rcases List.mem_cons.1 h with h | h
        · exact absurd h (by decide)
        · exact query_clean.2.2 h

theorem piece_no_amp (k v : Bytes) : b '&' ∉ queryEscape k ++ b '=' :: queryEscape v := by
  intro h
  rcases List.mem_append.1 h with h | h
  · exact query_clean.1 h
  · rcases List.mem_cons.1 h with h | h
    · exact absurd h (by decide)
    · exact query_clean.1 h

theorem pairs_ne_nil {k v : Bytes} (h : v ≠ []) (l : List (Bytes × Bytes)) : pairs ((k, v) :: l) ≠ [] := by
  unfold pairs
  rw [if_neg h]
  cases pairs l <;> simp

/-- what is set is what is read -/
theorem parse_pairs {l : List (Bytes × Bytes)} (h : ∀ e ∈ l, e.2 ≠ []) : parseQuery (pairs l) = l := by
  show (split (b '&') (pairs l)).filterMap pair = l
  induction l with
  | nil => rfl
  | cons e l ih =>
    obtain ⟨k, v⟩ := e
    have hv : v ≠ [] := h (k, v) (List.mem_cons_self)
    have ih := ih (fun e he => h e (List.mem_cons_of_mem _ he))
    unfold pairs
    rw [if_neg hv]
    cases l with
    | nil =>
      show (split (b '&') (queryEscape k ++ b '=' :: queryEscape v)).filterMap pair = _
      rw [split_plain (piece_no_amp k v)]
      simp [pair_escape]
    | cons e l =>
      obtain ⟨k', v'⟩ := e
      have hne := pairs_ne_nil (k := k') (h (k', v') (by simp)) l
      generalize hp : pairs ((k', v') :: l) = r at hne ih ⊢
      match r with
      | [] => exact absurd rfl hne
      | x :: r =>
        show (split (b '&') (queryEscape k ++ b '=' :: queryEscape v ++ b '&' :: (x :: r))).filterMap pair = _
        rw [split_append (piece_no_amp k v), List.filterMap_cons, pair_escape, ih]

/-- empty values are left out -/
theorem pairs_filter (l : List (Bytes × Bytes)) : pairs l = pairs (l.filter (fun e => e.2 ≠ [])) := by
  induction l with
  | nil => rfl
  | cons e l ih =>
    obtain ⟨k, v⟩ := e
    by_cases hv : v = []
    · rw [List.filter_cons_of_neg (by simp [hv]), ← ih]
      conv => lhs; unfold pairs
      rw [if_pos hv]
    · rw [List.filter_cons_of_pos (by simp [hv])]
      unfold pairs
      rw [if_neg hv, if_neg hv, ← ih]

theorem parse_filter (l : List (Bytes × Bytes)) : parseQuery (pairs l) = l.filter (fun e => e.2 ≠ []) := by
  rw [pairs_filter, parse_pairs]
  intro e he
  simpa using (List.mem_filter.1 he).2

theorem bind_empty {l : List (Bytes × Bytes)} {key : Bytes} (h : ∀ e ∈ l, e.1 = key → e.2 = []) :
    Url.bind (l.filter (fun e => e.2 ≠ [])) key = none := by
  unfold Url.bind
  rw [List.filter_filter, List.filter_eq_nil_iff.2]
  · rfl
  · intro e he hc
    simp only [ne_eq, decide_not, Bool.and_eq_true, decide_eq_true_eq, Bool.not_eq_eq_eq_not, Bool.not_true, decide_eq_false_iff_not] at hc
    exact hc.2 (h e he hc.1)

theorem bind_three {k1 k2 k3 c p v : Bytes} (h12 : k1 ≠ k2) (h13 : k1 ≠ k3) (h23 : k2 ≠ k3) (hc : c ≠ []) (hp : p ≠ []) (hv : v ≠ []) :
    Url.bind [(k1, c), (k2, p), (k3, v)] k1 = some c ∧ Url.bind [(k1, c), (k2, p), (k3, v)] k2 = some p ∧
      Url.bind [(k1, c), (k2, p), (k3, v)] k3 = some v := by
  refine ⟨?_, ?_, ?_⟩
  · simp [Url.bind, List.filter, h12.symm, h13.symm, hc]
  · simp [Url.bind, List.filter, h12, h23.symm, hp]
  · simp [Url.bind, List.filter, h13, h23, hv]

theorem documents_address (c p v : Bytes) :
    build [] (.documents c p v) = some (escape pathOk (b '/' :: slashed [v1, str "documents".toList]) ++
      (if (Op.documents c p v).query = [] then [] else b '?' :: (Op.documents c p v).query)) := by
  have : join (if ([] : Bytes) = [] then str ['/', 'v', '1'] else []) (b '/' :: str "documents".toList) =
      b '/' :: slashed [v1, str "documents".toList] := by decide +kernel
  rw [← this]
  rfl

theorem proper_documents : ∀ p ∈ [v1, str "documents".toList], Proper p := by
  intro p hp
  rcases List.mem_cons.1 hp with rfl | hp
  · exact proper_v1
  · rcases List.mem_singleton.1 hp with rfl; unfold Proper; decide +kernel

theorem serve_documents (q : Bytes) :
    serve .get (escape pathOk (b '/' :: slashed [v1, str "documents".toList]) ++ (if q = [] then [] else b '?' :: q)) =
      (match bind (parseQuery q) (str "collection".toList), bind (parseQuery q) (str "property".toList),
          bind (parseQuery q) (str "value".toList) with
      | some c, some p, some v => .ok (.documents c p v)
      | _, _, _ => .error .unprocessable) := by
  rw [serve_path proper_documents (by simp)]
  rw [show [v1, str "documents".toList].map (escape pathOk) = [v1, str "documents".toList] by decide +kernel]
  unfold route
  simp only
  rw [if_neg (by decide +kernel), if_neg (by decide +kernel)]
  rfl

theorem query_documents {c p v : Bytes} (hc : c ≠ []) (hp : p ≠ []) (hv : v ≠ []) :
    parseQuery (Op.documents c p v).query = [(str "collection".toList, c), (str "property".toList, p), (str "value".toList, v)] := by
  refine parse_pairs ?_
  intro e he
  simp only [List.mem_cons, List.not_mem_nil, or_false] at he
  rcases he with rfl | rfl | rfl <;> assumption

theorem unescape_pre {s : Bytes} (hs : b '%' ∉ s) (t : Bytes) : unescape false (s ++ t) = (unescape false t).map (s ++ ·) := by
  induction s with
  | nil => show unescape false t = _; cases unescape false t <;> rfl
  | cons x s ih =>
    show unescape false (x :: (s ++ t)) = _
    rw [unescape_plain _ (by rintro rfl; exact hs (List.mem_cons_self)) (by intro h; cases h),
      ih (fun h => hs (List.mem_cons_of_mem _ h))]
    cases unescape false t <;> rfl

/-- a name escaped by a client that leaves only harmless bytes -/
theorem serve_escaped {ok : UInt8 → Bool} (h : ∀ c, ok c = true → validByte c = true ∧ c ≠ b '/' ∧ c ≠ b '?' ∧ c ≠ b '%') {n : Bytes}
    (hp : Proper (escape ok n)) : serve .delete (b '/' :: slashed [v1, colls, escape ok n]) = .ok (.delete n) := by
  have hq : b '?' ∉ b '/' :: slashed [v1, colls, escape ok n] := by
    intro hm
    rcases List.mem_cons.1 hm with hm | hm
    · exact absurd hm (by decide)
    · rcases List.mem_append.1 (show b '?' ∈ v1 ++ b '/' :: (colls ++ b '/' :: escape ok n) from hm) with hm | hm
      · exact absurd hm (by decide +kernel)
      · rcases List.mem_cons.1 hm with hm | hm
        · exact absurd hm (by decide)
        · rcases List.mem_append.1 hm with hm | hm
          · exact absurd hm (by decide +kernel)
          · rcases List.mem_cons.1 hm with hm | hm
            · exact absurd hm (by decide)
            · rcases mem_escape hm with hm | hm | hm
              · exact (h _ hm).2.2.1 rfl
              · exact absurd hm (by decide)
              · exact absurd hm (by decide)
  have hok : ok (b '%') = false := by
    cases h' : ok (b '%') with
    | false => rfl
    | true => exact absurd rfl (h _ h').2.2.2
  have hall : (b '/' :: slashed [v1, colls, escape ok n]).all validByte = true := by
    rw [List.all_eq_true]
    intro x hm
    rcases List.mem_cons.1 hm with rfl | hm
    · decide
    · rcases List.mem_append.1 (show x ∈ v1 ++ b '/' :: (colls ++ b '/' :: escape ok n) from hm) with hm | hm
      · have : ∀ y ∈ v1, validByte y = true := by decide +kernel
        exact this x hm
      · rcases List.mem_cons.1 hm with rfl | hm
        · decide
        · rcases List.mem_append.1 hm with hm | hm
          · have : ∀ y ∈ colls, validByte y = true := by decide +kernel
            exact this x hm
          · rcases List.mem_cons.1 hm with rfl | hm
            · decide
            · rcases mem_escape hm with hm | rfl | hm
              · exact (h _ hm).1
              · decide
              · exact valid_of_pathOk (by unfold pathOk; rw [hm]; rfl)
  have hun : ∃ q, unescape false (b '/' :: slashed [v1, colls, escape ok n]) = some q := by
    refine ⟨b '/' :: (v1 ++ b '/' :: (colls ++ b '/' :: n)), ?_⟩
    show unescape false ((b '/' :: (v1 ++ b '/' :: (colls ++ [b '/']))) ++ escape ok n) = _
    rw [unescape_pre (by decide +kernel), unescape_escape _ hok]
    rfl
  obtain ⟨q, hun⟩ := hun
  unfold serve
  simp only [cut_plain hq]
  unfold escapedPath
  rw [hun]
  simp only [Option.map_some]
  rw [if_pos (.inr hall)]
  have hpp : ∀ p ∈ [v1, colls, escape ok n], Proper p := by
    intro p hp'
    simp only [List.mem_cons, List.not_mem_nil, or_false] at hp'
    rcases hp' with rfl | rfl | rfl
    · exact proper_v1
    · exact proper_colls
    · exact hp
  rw [clean_proper hpp, pieces_rooted, split_slashed (fun x hx => (hpp x hx).2.2.2) (by simp)]
  show (if ([] : Bytes) = [] ∧ v1 = v1 ∧ colls = colls then Served.ok (.delete ((unescape false (escape ok n)).getD (escape ok n))) else .error .notFound) = _
  rw [if_pos ⟨rfl, rfl, rfl⟩, unescape_escape _ hok]
  rfl

end Fave.Url
