import Verif.Lemmas.UrlTrip
/-!
# C67: addresses made by the URL builders lead back to their operations
-/
namespace Fave.C67
open Fave.Url

/-- the parameters in the address are not empty, and the collection of a deletion is one piece of a path -/
def Fair : Op → Prop
  | .delete n => n ≠ [] ∧ n ≠ str ['.'] ∧ n ≠ str ['.', '.'] ∧ b '/' ∉ n
  | .documents c p v => c ≠ [] ∧ p ≠ [] ∧ v ≠ []
  | _ => True

/-- Every operation with such parameters, whatever bytes they consist of, has an address, and a request with that address is handed to the
operation with exactly these parameters.  Missing, because false: names of collections with slashes, `.` and `..` (`round_trip_iff`,
`deletes_another`). -/
theorem round_trip_partial (o : Op) (h : Fair o) : ∃ u, build [] o = some u ∧ serve o.method u = .ok o := by
  cases o with
  | root => exact ⟨_, rfl, by decide +kernel⟩
  | collections => exact ⟨_, rfl, by decide +kernel⟩
  | create => exact ⟨_, rfl, by decide +kernel⟩
  | add => exact ⟨_, rfl, by decide +kernel⟩
  | nearest => exact ⟨_, rfl, by decide +kernel⟩
  | nearestByVector => exact ⟨_, rfl, by decide +kernel⟩
  | documents c p v =>
    refine ⟨_, documents_address c p v, ?_⟩
    show serve .get _ = _
    rw [serve_documents, query_documents h.1 h.2.1 h.2.2]
    obtain ⟨e1, e2, e3⟩ := bind_three (k1 := str "collection".toList) (k2 := str "property".toList) (k3 := str "value".toList)
      (by decide +kernel) (by decide +kernel) (by decide +kernel) h.1 h.2.1 h.2.2
    rw [e1, e2, e3]
  | delete n =>
    refine ⟨_, build_delete h.1, ?_⟩
    show serve .delete _ = _
    rw [serve_landing]
    have : landing n = [v1, colls, n] := by
      unfold landing
      rw [split_plain h.2.2.2, cleanPieces_proper]
      · rfl
      · intro p hp; rcases List.mem_singleton.1 hp with rfl; exact h
    rw [this]
    rfl

/-- blanks, `&`, `=`, `?`, `%`, `+`, slashes and bytes that are no letters survive in the query; blanks, `?`, `%` and `#` in a path -/
example : Fair (.documents (str "a/../b".toList) (str "x&y = ?".toList) [43, 37, 50, 255, 0]) ∧ Fair (.delete (str "my docs?#50%".toList)) := by
  unfold Fair; decide +kernel

/-- For deletions the round trip works for these names and for no others. -/
theorem round_trip_iff (n : Bytes) (hn : n ≠ []) :
    (∃ u, build [] (.delete n) = some u ∧ serve .delete u = .ok (.delete n)) ↔ Fair (.delete n) := by
  constructor
  · rintro ⟨u, hu, hs⟩
    rw [build_delete hn] at hu
    rw [← Option.some.inj hu, serve_landing] at hs
    have hp := landing_proper n
    generalize landing n = L at hs hp
    match L with
    | [] | [_] | [_, _] | _ :: _ :: _ :: _ :: _ => cases hs
    | [v, c, m] =>
      simp only at hs
      split at hs
      · injection hs with h; injection h with h
        subst h
        exact hp m (by simp)
      · cases hs
  · intro h; exact round_trip_partial _ h

/-- The address built for deleting the collection "a/../b" deletes the collection "b", and so do those for "b/" and "./b"; the one for
"a/b" deletes nothing. -/
theorem deletes_another :
    (build [] (.delete (str "a/../b".toList))).map (serve .delete) = some (.ok (.delete (str "b".toList))) ∧
    (build [] (.delete (str "b/".toList))).map (serve .delete) = some (.ok (.delete (str "b".toList))) ∧
    (build [] (.delete (str "./b".toList))).map (serve .delete) = some (.ok (.delete (str "b".toList))) ∧
    (build [] (.delete (str "a/b".toList))).map (serve .delete) = some (.error .notFound) := by decide +kernel

/-- What is deleted by the address built for a name is always one of the pieces between the slashes of the name; no other operation is
reached. -/
theorem lands_in_piece (n u : Bytes) (o : Op) (hu : build [] (.delete n) = some u) (hs : serve .delete u = .ok o) :
    ∃ m, o = .delete m ∧ m ∈ split (b '/') n := by
  have hn : n ≠ [] := by rintro rfl; cases hu
  rw [build_delete hn] at hu
  rw [← Option.some.inj hu, serve_landing] at hs
  have ht := third_of_name (out := [colls, v1]) (l := split (b '/') n) (N := split (b '/') n) (fun p hp => hp) (by simp)
  rw [show cleanPieces true [colls, v1] (split (b '/') n) = landing n from rfl] at ht
  generalize landing n = L at hs ht
  match L with
  | [] | [_] | [_, _] | _ :: _ :: _ :: _ :: _ => cases hs
  | [v, c, m] =>
    simp only at hs
    split at hs
    · injection hs with h
      exact ⟨m, h.symm, ht m (by simp)⟩
    · cases hs

example : ∃ u, build [] (.delete (str "x/../../collections/y".toList)) = some u ∧ serve .delete u = .ok (.delete (str "y".toList)) :=
  ⟨_, rfl, by decide +kernel⟩

/-- Without a name no address is built; a look-up with an empty parameter has an address, but the request is refused. -/
theorem empty_refused (c p v : Bytes) (h : c = [] ∨ p = [] ∨ v = []) :
    build [] (.delete []) = none ∧ ∃ u, build [] (.documents c p v) = some u ∧ serve .get u = .error .unprocessable := by
  refine ⟨rfl, _, documents_address c p v, ?_⟩
  rw [serve_documents]
  rw [show parseQuery (Op.documents c p v).query = _ from parse_filter _]
  have k1 : str "property".toList ≠ str "collection".toList := by decide +kernel
  have k2 : str "value".toList ≠ str "collection".toList := by decide +kernel
  have k3 : str "value".toList ≠ str "property".toList := by decide +kernel
  rcases h with rfl | rfl | rfl
  · rw [bind_empty (key := str "collection".toList)]
    intro e he hk
    simp only [List.mem_cons, List.not_mem_nil, or_false] at he
    rcases he with rfl | rfl | rfl
    · rfl
    · exact absurd hk k1
    · exact absurd hk k2
  · rw [bind_empty (key := str "property".toList)]
    · cases Url.bind _ (str "collection".toList) <;> rfl
    intro e he hk
    simp only [List.mem_cons, List.not_mem_nil, or_false] at he
    rcases he with rfl | rfl | rfl
    · exact absurd hk.symm k1
    · rfl
    · exact absurd hk k3
  · rw [bind_empty (key := str "value".toList)]
    · cases Url.bind _ (str "collection".toList) <;> cases Url.bind _ (str "property".toList) <;> rfl
    intro e he hk
    simp only [List.mem_cons, List.not_mem_nil, or_false] at he
    rcases he with rfl | rfl | rfl
    · exact absurd hk.symm k2
    · exact absurd hk.symm k3
    · rfl

example : ([] : Bytes) = [] ∨ str ['p'] = [] ∨ str ['v'] = [] := .inl rfl

/-- A client that escapes every byte of the name itself can delete every collection. -/
theorem every_name_deletable (n : Bytes) (hn : n ≠ []) :
    serve .delete (str "/v1/collections/".toList ++ escape (fun _ => false) n) = .ok (.delete n) := by
  have hp : Proper (escape (fun _ => false) n) := by
    cases n with
    | nil => exact absurd rfl hn
    | cons c n =>
      refine ⟨escape_ne_nil hn, ?_, ?_, ?_⟩
      · intro h; exact absurd (List.cons.inj h).1 (by decide)
      · intro h; exact absurd (List.cons.inj h).1 (by decide)
      · intro h; rcases mem_escape h with h | h | h <;> exact absurd h (by decide)
  exact serve_escaped (by intro c h; cases h) hp

/-- With the escaping of `url.PathEscape` all names but `.` and `..` can be deleted. -/
theorem path_escape_deletes (n : Bytes) (hn : n ≠ []) (h1 : n ≠ str ['.']) (h2 : n ≠ str ['.', '.']) :
    serve .delete (str "/v1/collections/".toList ++ escape segmentOk n) = .ok (.delete n) := by
  refine serve_escaped ?_ ⟨escape_ne_nil hn, fun h => h1 (escape_dots (by decide) (by decide) h), fun h => h2 (escape_dots (by decide) (by decide) h), ?_⟩
  · exact all_bytes (by decide +kernel)
  · intro h; rcases mem_escape h with h | h | h <;> exact absurd h (by decide)

example : serve .delete (str "/v1/collections/%2E%2E".toList) = .ok (.delete (str "..".toList)) ∧
    serve .delete (str "/v1/collections/a%2F..%2Fb".toList) = .ok (.delete (str "a/../b".toList)) ∧
    serve .delete (str "/v1/collections/..".toList) = .error .notFound := by decide +kernel

end Fave.C67
