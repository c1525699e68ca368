import Verif.Lemmas.Change32
import Verif.Lemmas.Meant
import Verif.Props.C82
import Verif.Props.C80
/-!
# C83 — from text to text: a search finds what it should

*The text of the answer to a search shows exactly the documents that earlier request bodies put into the collection and whose vectors are within the limit, the
closest first, each with its properties and its distance.*

Everything is put together: what bodies are read as (C80), what they ask of the client (`meant`), what the client stores and finds (C15–C24, C57), FaVe's own
32-bit arithmetic with its infinities (C36, C63–C66), what is stored and shown of a document (C78, C82), how numbers are written (C77).

False of the code for the document closest of all (`exact_match_missing`), for vectors with infinite entries (C66) and after disorderly requests (C57).
True up to rounding for collections of up to 30 moderate vectors (`vector_search_partial`, `text_search_partial`), and exactly for the distances as they are
computed (`search_exact_partial`, `text_search_exact_partial`).
-/
namespace Fave.C83
open Distance F32 Client C64

local instance : Dist Num := numDist
local instance instQ : Dist ℚ := fieldDist
local instance : LawfulDist ℚ := fieldLawful

theorem gf : ∀ d : ℚ, Num.val (Num.fin d) = d := fun _ => rfl

/-- In FaVe's own arithmetic, after any orderly requests whose vectors consist of numbers: a search by vector finds exactly the entries whose distance, as it is
computed, is not negative and within the limit, the closest first.  Missing: more than 30 entries, disorderly requests, infinite numbers. -/
theorem search_exact_partial (avx : Bool) (junk : ℕ → ℕ → Num) (L : ℕ) (hL : L ≠ 0) (name : Str) (dbs : Map (Db Num))
    (hf : dbs.get (ns ++ name) = none) (rs : List (Req Num Num)) (hpl : ∀ r ∈ rs, Plain r) (ht : OrderlyRun List.length L 30 name Shelf.start rs)
    (s : Shelf Num) (hs : s = Shelf.start.after List.length L name rs) (hp : s.pod = true) (hth : s.there = true) (hn : s.entries ≠ [])
    (o : Oracle Num Num) (ho : o.Works) (q : List Num) (hq : q.length = L) (hqn : Numbers q) (max : ℚ) (limit : Int) (hlim : 0 ≤ limit) :
    ∃ (hits : List (Item ℚ)) (docs : List (Props Num)) (ds : List ℚ),
      (serve (envNum avx junk) (run (envNum avx junk) (World.fresh true dbs) rs) (.nearVector o name q (.fin max) limit)).2 = .near docs (ds.map .fin) ∧
      (hits.map Item.id).Nodup ∧ hits.Pairwise (fun a b => a.dist ≤ b.dist) ∧
      (∀ id d, (⟨id, d⟩ : Item ℚ) ∈ hits ↔ ∃ x, s.entries[id]? = some x ∧
        distance ops avx junk .cosine (normalize ops q) (normalize ops x.2) = .ok (.fin d) ∧ 0 ≤ d ∧ d ≤ max) ∧
      docs.length = (C57.shown limit hits).length ∧
      ∀ (j : ℕ) (x : Item ℚ), (C57.shown limit hits)[j]? = some x → ds[j]? = some x.dist ∧
        ∃ p e, docs[j]? = some p ∧ s.entries[x.id]? = some e ∧ StoredAs e.1 (x.id : Int) p := by
  have hgood : (World.fresh true dbs : World Num).Good Kept := fresh_good _ _
  obtain ⟨e1, e2⟩ := run_back (g := Num.val) change gf (env_same avx junk) rs hgood hpl
  obtain ⟨-, -, e3⟩ := serve_back (g := Num.val) change gf (env_same avx junk) e2 (.nearVector o name q (.fin max) limit) hqn
  have e4 := e3 rfl
  obtain ⟨hits, docs, ds, h1, h2, h3, h4, h5, h6⟩ := C57.found_as_put_partial (envVal avx junk) (envVal_ok avx junk)
    (by show 0 < 60; decide) rfl (fun _ => rfl) (envVal_some avx junk) (envVal_symm avx junk)
    (by show (30 : ℕ) < 25000; decide) (by show (30 : ℕ) ≤ 800; decide) L hL name dbs hf (rs.map (Req.back Num.fin Num.val gf)) (orderlyRun_back ht) s
    (by rw [hs]; exact (after_back ..).symm) hp hth hn (o.back Num.fin Num.val gf) (works_back ho) q hq max limit hlim
  refine ⟨hits, docs, ds, ?_, h2, ?_, ?_, h5, h6⟩
  · rw [e4, e1]
    show Ans.to Num.fin (serve (envVal avx junk) _ (.nearVector (o.back Num.fin Num.val gf) name q max limit)).2 = _
    rw [h1]
    rfl
  · refine h3.imp ?_
    intro a b hab
    have : decide (b.dist < a.dist) = false := hab
    simpa using this
  · intro id d
    rw [h4]
    have hx : ∀ x, s.entries[id]? = some x → ((envVal avx junk).P.metric.dist ((envVal avx junk).P.norm q) ((envVal avx junk).P.norm x.2) = some d ↔
        distance ops avx junk .cosine (normalize ops q) (normalize ops x.2) = .ok (.fin d)) := by
      intro x hx
      have hm := List.mem_of_getElem? hx
      rw [hs] at hm
      obtain ⟨hnum, hlen⟩ := entries_numbers hpl x hm
      obtain ⟨d', hd'⟩ := dist_fin avx junk hqn hnum (by rw [hq, hlen])
      show (distance ops avx junk .cosine (normalize ops q) (normalize ops x.2)).toOption.map Num.val = some d ↔ _
      rw [hd']
      simp [Except.toOption, Num.val]
    have hz : ∀ a b : ℚ, (Dist.lt a b = false) ↔ b ≤ a := by
      intro a b
      show decide (a < b) = false ↔ _
      simp
    constructor
    · rintro ⟨x, a, b, c, e⟩
      exact ⟨x, a, (hx x a).1 b, (hz _ _).1 c, (hz _ _).1 e⟩
    · rintro ⟨x, a, b, c, e⟩
      exact ⟨x, a, (hx x a).2 b, (hz _ _).2 c, (hz _ _).2 e⟩

/-- The same for searches by text, if the limit is at least the number of entries. -/
theorem text_search_exact_partial (avx : Bool) (junk : ℕ → ℕ → Num) (L : ℕ) (hL : L ≠ 0) (name : Str) (dbs : Map (Db Num))
    (hf : dbs.get (ns ++ name) = none) (rs : List (Req Num Num)) (hpl : ∀ r ∈ rs, Plain r) (ht : OrderlyRun List.length L 30 name Shelf.start rs)
    (s : Shelf Num) (hs : s = Shelf.start.after List.length L name rs) (hp : s.pod = true) (hth : s.there = true) (hn : s.entries ≠ [])
    (o : Oracle Num Num) (ho : o.Works) (hoa : o.Are Kept Numbers) (text : Str) (q : List Num) (hc : o.corpi 0 text = .vec q) (hq : q.length = L) (hqn : Numbers q) (max : ℚ) (limit : Int) (hlim : (s.entries.length : Int) ≤ limit) :
    ∃ (hits : List (Item ℚ)) (docs : List (Props Num)) (ds : List ℚ),
      (serve (envNum avx junk) (run (envNum avx junk) (World.fresh true dbs) rs) (.nearText o name text (.fin max) limit)).2 = .near docs (ds.map .fin) ∧
      (hits.map Item.id).Nodup ∧ hits.Pairwise (fun a b => a.dist ≤ b.dist) ∧
      (∀ id d, (⟨id, d⟩ : Item ℚ) ∈ hits ↔ ∃ x, s.entries[id]? = some x ∧
        distance ops avx junk .cosine (normalize ops q) (normalize ops x.2) = .ok (.fin d) ∧ 0 ≤ d ∧ d ≤ max) ∧
      docs.length = (C57.shown limit hits).length ∧
      ∀ (j : ℕ) (x : Item ℚ), (C57.shown limit hits)[j]? = some x → ds[j]? = some x.dist ∧
        ∃ p e, docs[j]? = some p ∧ s.entries[x.id]? = some e ∧ StoredAs e.1 (x.id : Int) p := by
  have hgood : (World.fresh true dbs : World Num).Good Kept := fresh_good _ _
  obtain ⟨e1, e2⟩ := run_back (g := Num.val) change gf (env_same avx junk) rs hgood hpl
  obtain ⟨-, -, e3⟩ := serve_back (g := Num.val) change gf (env_same avx junk) e2 (.nearText o name text (.fin max) limit) hoa
  have e4 := e3 rfl
  obtain ⟨hits, docs, ds, h1, h2, h3, h4, h5, h6⟩ := C57.text_found_as_put_partial (envVal avx junk) (envVal_ok avx junk)
    (by show 0 < 60; decide) rfl (fun _ => rfl) (envVal_some avx junk) (envVal_symm avx junk)
    (by show (30 : ℕ) < 25000; decide) L hL name dbs hf (rs.map (Req.back Num.fin Num.val gf)) (orderlyRun_back ht) s
    (by rw [hs]; exact (after_back ..).symm) hp hth hn (o.back Num.fin Num.val gf) (works_back ho) text q hc hq max limit hlim
  refine ⟨hits, docs, ds, ?_, h2, ?_, ?_, h5, h6⟩
  · rw [e4, e1]
    show Ans.to Num.fin (serve (envVal avx junk) _ (.nearText (o.back Num.fin Num.val gf) name text max limit)).2 = _
    rw [h1]
    rfl
  · refine h3.imp ?_
    intro a b hab
    have : decide (b.dist < a.dist) = false := hab
    simpa using this
  · intro id d
    rw [h4]
    have hx : ∀ x, s.entries[id]? = some x → ((envVal avx junk).P.metric.dist ((envVal avx junk).P.norm q) ((envVal avx junk).P.norm x.2) = some d ↔
        distance ops avx junk .cosine (normalize ops q) (normalize ops x.2) = .ok (.fin d)) := by
      intro x hx
      have hm := List.mem_of_getElem? hx
      rw [hs] at hm
      obtain ⟨hnum, hlen⟩ := entries_numbers hpl x hm
      obtain ⟨d', hd'⟩ := dist_fin avx junk hqn hnum (by rw [hq, hlen])
      show (distance ops avx junk .cosine (normalize ops q) (normalize ops x.2)).toOption.map Num.val = some d ↔ _
      rw [hd']
      simp [Except.toOption, Num.val]
    have hz : ∀ a b : ℚ, (Dist.lt a b = false) ↔ b ≤ a := by
      intro a b
      show decide (a < b) = false ↔ _
      simp
    constructor
    · rintro ⟨x, a, b, c, e⟩
      exact ⟨x, a, (hx x a).1 b, (hz _ _).1 c, (hz _ _).1 e⟩
    · rintro ⟨x, a, b, c, e⟩
      exact ⟨x, a, (hx x a).2 b, (hz _ _).2 c, (hz _ _).2 e⟩

theorem cosine_isFloat {avx : Bool} {junk : ℕ → ℕ → Num} {a b : List Num} {d : ℚ} (h : distance ops avx junk .cosine a b = .ok (.fin d)) : IsFloat d := by
  unfold distance at h
  split at h
  · cases h
  · split at h
    · cases h
    · rename_i s _
      simp only [Except.ok.injEq] at h
      have h' : F32.sub (.fin 1) s = .fin d := h
      cases s with
      | fin x => exact fl_isFloat h'
      | inf _ => cases h'
      | nan => cases h'

section
open Json Docs Bodies Texts

/-- only the distances of the documents found are looked at -/
theorem hits_take : ∀ (ts : List Text) (ds es : List Num), ds.take ts.length = es.take ts.length → hits ts ds = hits ts es
  | [], _, _, _ => by simp [hits]
  | t :: ts, ds, es, h => by
    cases ds with
    | nil =>
      cases es with
      | nil => rfl
      | cons e es => simp at h
    | cons d ds =>
      cases es with
      | nil => simp at h
      | cons e es =>
        simp only [List.length_cons, List.take_succ_cons, List.cons.injEq] at h
        obtain ⟨rfl, h⟩ := h
        cases hr : recalled t <;> simp only [hits, hr]
        rw [hits_take ts ds es h]

/-- two documents of which the same is stored -/
theorem same_stored {d d' : DocB} {l l' : List (Text × J)} (hok : Sorted l ∧ takeMembers [] l = l ∧ ∀ m ∈ l, m.2.Ok)
    (hok' : Sorted l' ∧ takeMembers [] l' = l' ∧ ∀ m ∈ l', m.2.Ok) {n : Int} {n' : Option Nat}
    (hst : StoredAs (⟨d.id, props l⟩ : Doc Num) n (keptProps ⟨d'.id, props l'⟩ n')) :
    d'.id = d.id ∧ ∀ k, k ∉ [kId, kVector, kIndex] → last l' k = last l k := by
  refine ⟨?_, ?_⟩
  · have := hst.id
    rw [C82.get_keptProps_id] at this
    simpa using this
  · intro k hk
    simp only [List.mem_cons, List.not_mem_nil, or_false, not_or] at hk
    have := hst.rest k hk.1 hk.2.2 hk.2.1
    rw [C82.get_keptProps _ _ _ hk.1 hk.2.2 hk.2.1] at this
    simp only at this
    rw [get_props, get_props] at this
    have u : ∀ {q : List (Text × J)}, (∀ m ∈ q, m.2.Ok) → ((q.lookup k).map (val k)).map unval = q.lookup k := by
      intro q hq
      cases e : q.lookup k with
      | none => rfl
      | some v =>
        have := unval_val (k := k) (hq _ (lookup_some_mem e)) (.inl hk.2.1)
        simp [this]
    rw [last_sorted hok.1, last_sorted hok'.1, ← u hok.2.2, ← u hok'.2.2, this]

theorem vecOf_dist {body : Text} {b : VecB} (h : Bodies.bind vecOf body = .ok b) : ∃ x, b.dist = .fin x := by
  obtain ⟨v, t, hv, ha⟩ := bind_ok h
  refine struct_inv (P := fun b : VecB => ∃ x, b.dist = .fin x) ((reads_ok _).1 _ _ _ hv) ?_ ⟨0, rfl⟩ ha
  rintro s m s' - ⟨x, hx⟩ hs
  unfold vecField at hs
  split at hs
  · obtain ⟨y, hy, rfl⟩ := Option.map_eq_some_iff.1 hs
    unfold float32Of at hy
    split at hy
    · exact ⟨x, by rw [← hx]; exact (Option.some.injEq _ _ ▸ hy).symm⟩
    · obtain ⟨z, -, rfl⟩ := Option.map_eq_some_iff.1 hy
      exact ⟨z, rfl⟩
    · cases hy
  · split at hs
    · obtain ⟨y, -, rfl⟩ := Option.map_eq_some_iff.1 hs; exact ⟨x, hx⟩
    · split at hs
      · obtain ⟨y, -, rfl⟩ := Option.map_eq_some_iff.1 hs; exact ⟨x, hx⟩
      · split at hs
        · obtain ⟨y, -, rfl⟩ := Option.map_eq_some_iff.1 hs; exact ⟨x, hx⟩
        · cases hs; exact ⟨x, hx⟩

theorem nearOf_dist {body : Text} {b : NearB} (h : Bodies.bind nearOf body = .ok b) : ∃ x, b.dist = .fin x := by
  obtain ⟨v, t, hv, ha⟩ := bind_ok h
  refine struct_inv (P := fun b : NearB => ∃ x, b.dist = .fin x) ((reads_ok _).1 _ _ _ hv) ?_ ⟨0, rfl⟩ ha
  rintro s m s' - ⟨x, hx⟩ hs
  unfold nearField at hs
  split at hs
  · obtain ⟨y, hy, rfl⟩ := Option.map_eq_some_iff.1 hs
    unfold float32Of at hy
    split at hy
    · exact ⟨x, by rw [← hx]; exact (Option.some.injEq _ _ ▸ hy).symm⟩
    · obtain ⟨z, -, rfl⟩ := Option.map_eq_some_iff.1 hy
      exact ⟨z, rfl⟩
    · cases hy
  · split at hs
    · obtain ⟨y, -, rfl⟩ := Option.map_eq_some_iff.1 hs; exact ⟨x, hx⟩
    · split at hs
      · obtain ⟨y, -, rfl⟩ := Option.map_eq_some_iff.1 hs; exact ⟨x, hx⟩
      · split at hs
        · obtain ⟨y, -, rfl⟩ := Option.map_eq_some_iff.1 hs; exact ⟨x, hx⟩
        · cases hs; exact ⟨x, hx⟩

/-- What the text of an answer to a search for the vector `q` within `max` should say, `s` being what the collection should hold after the requests `rs`: it
shows documents that stand in the requests, each with its properties and with a distance; these are the first `limit` of `hits` (all if it is 0).  Each
of `hits` is an entry, named once, whose direction is within `max` of that of `q`, with the right distance; those within `max` are all there; and the closer
ones come first — all this up to the rounding error `slack`. -/
def TellsTruth (rs : List TReq) (name : Text) (s : Shelf Num) (q : List ℚ) (max : ℚ) (limit : Int) (t : Text) : Prop :=
  ∃ (hits : List (Item ℚ)) (js : List J), parse t = some (.obj [(kDocuments, .arr js), (kName, .str name)]) ∧ js.length = (C57.shown limit hits).length ∧
    (∀ (j : ℕ) (x : Item ℚ), (C57.shown limit hits)[j]? = some x → ∃ (e : Doc Num × List Num) (d : DocB) (l w : List (Text × J)) (y : J) (z : Lit),
      s.entries[x.id]? = some e ∧ (∃ r ∈ rs, Says r name d l) ∧ e.1 = ⟨d.id, props l⟩ ∧ js[j]? = some y ∧ Shows [kDistance] d l w y ∧
      last w kDistance = some (.num z) ∧ f32.read z.value = some x.dist) ∧
    (hits.map Item.id).Nodup ∧
    (∀ x ∈ hits, ∃ e, s.entries[x.id]? = some e ∧ |(x.dist : ℝ) - C65.apart q (e.2.map Num.val)| ≤ C65.slack q.length ∧
      C65.apart q (e.2.map Num.val) ≤ max + C65.slack q.length) ∧
    (∀ id e, s.entries[id]? = some e → C65.slack q.length ≤ C65.apart q (e.2.map Num.val) → C65.apart q (e.2.map Num.val) + C65.slack q.length ≤ max →
      id ∈ hits.map Item.id) ∧
    (∀ (i j : ℕ) (x y : Item ℚ), i < j → hits[i]? = some x → hits[j]? = some y → ∀ d e, s.entries[x.id]? = some d → s.entries[y.id]? = some e →
      C65.apart q (d.2.map Num.val) ≤ C65.apart q (e.2.map Num.val) + 2 * C65.slack q.length)

/-- from an answer of the client to its text -/
theorem told (avx : Bool) (junk : ℕ → ℕ → Num) (uuid : Str → Bool) (odd : Option G → Text) (L : ℕ) (name : Text)
    (hne : name ≠ []) (dbs : Map (Db Num)) (hf : dbs.get (ns ++ name) = none) (rs : List TReq)
    (hpl : ∀ c ∈ rs.filterMap (meant uuid), Plain c)
    (s : Shelf Num) (hs : s = Shelf.start.after List.length L name (rs.filterMap (meant uuid)))
    (hm : ∀ x ∈ s.entries, Moderate (x.2.map Num.val))
    (hrange : ∀ r ∈ rs, ∀ d l, Says r name d l → ∀ k v, last l k = some v → k ∉ [kId, kVector, kIndex] → InRange v)
    (q : List ℚ) (hq : q.length = L) (hqm : Moderate q) (max : ℚ) (limit : Int) (hits : List (Item ℚ)) (docs : List (Props Num)) (ds : List ℚ)
    (hmem : ∀ p ∈ docs, p ∈ (Texts.run (envNum avx junk) uuid odd (World.fresh true dbs) rs).docs (ns ++ name))
    (h2 : (hits.map Item.id).Nodup) (h3 : hits.Pairwise (fun a b => a.dist ≤ b.dist))
    (h4 : ∀ id d, (⟨id, d⟩ : Item ℚ) ∈ hits ↔ ∃ x, s.entries[id]? = some x ∧
        distance ops avx junk .cosine (normalize ops (vec q)) (normalize ops x.2) = .ok (.fin d) ∧ 0 ≤ d ∧ d ≤ max)
    (h5 : docs.length = (C57.shown limit hits).length)
    (h6 : ∀ (j : ℕ) (x : Item ℚ), (C57.shown limit hits)[j]? = some x → ds[j]? = some x.dist ∧
        ∃ p e, docs[j]? = some p ∧ s.entries[x.id]? = some e ∧ StoredAs e.1 (x.id : Int) p) :
    ∃ t, found odd name (docs.map docText) (ds.map .fin) = .ok t ∧ TellsTruth rs name s q max limit t := by
  have hent : ∀ x ∈ s.entries, Numbers x.2 ∧ x.2.length = L := by rw [hs]; exact entries_numbers hpl
  -- the distances are floats
  have hfl : ∀ x ∈ hits, IsFloat x.dist := by
    rintro ⟨id, d⟩ hx
    obtain ⟨u, -, h, -⟩ := (h4 id d).1 hx
    exact cosine_isFloat h
  have hsub : ∀ x ∈ C57.shown limit hits, x ∈ hits := by
    intro x hx
    unfold C57.shown at hx
    split at hx
    · exact hx
    · exact List.mem_of_mem_take hx
  -- where the documents come from
  have hdocs0 : (World.fresh true dbs : World Num).docs (ns ++ name) = [] := by
    unfold World.docs World.fresh
    simp only [hf, Option.getD_none]
  have hadd : ∀ p, ∃ a : C78.Added, p ∈ docs → docText p = stored (kept a.id a.n a.props) ∧ (∀ m ∈ a.props, m.2.Ok) ∧ (∀ m, a.n = some m → m < 2 ^ 53) ∧
      (∀ k v, last a.props k = some v → k ∉ [kId, kVector, kIndex] → InRange v) ∧
      ∀ (e : Doc Num × List Num) (n : Int), e ∈ s.entries → StoredAs e.1 n p → ∃ d l, (∃ r ∈ rs, Says r name d l) ∧ e.1 = ⟨d.id, props l⟩ ∧ a.id = d.id ∧
        ∀ k, k ∉ [kId, kVector, kIndex] → last a.props k = last l k := by
    intro p
    by_cases hpd : p ∈ docs
    · obtain ⟨d', l', htold, hfrom⟩ := run_docs (envNum avx junk) uuid odd (World.fresh true dbs) name hdocs0 rs p (hmem p hpd)
      have hok' := C82.told_ok htold
      obtain ⟨n', hn1, hn2⟩ := C82.text_of (by show (25000 : ℕ) ≤ 2 ^ 53; norm_num) hok' hfrom
      obtain ⟨n'', rfl, -⟩ := hfrom
      refine ⟨⟨d'.id, n', l'⟩, fun _ => ⟨hn1, hok'.2.2, hn2, ?_, ?_⟩⟩
      · obtain ⟨before, r, since, rfl, hsays, -⟩ := htold
        exact hrange r (by simp) d' l' hsays
      · intro e n he hst
        rw [hs] at he
        rcases after_from he with h | ⟨o', ti, ds', g1, -, g3, -⟩
        · cases h
        obtain ⟨r, hr, hr'⟩ := List.mem_filterMap.1 g1
        obtain ⟨body', b', dd, x, l, rfl, k1, k2, k3, k4, k5, k6⟩ := meant_says hr' g3
        have hsays : Says (.add o' body') name x l := ⟨o', body', b', dd, rfl, k1, k2, k3, k4, k5⟩
        rw [k6] at hst
        obtain ⟨c1, c2⟩ := same_stored (C82.says_ok hsays) hok' hst
        exact ⟨x, l, ⟨_, hr, hsays⟩, k6, c1, c2⟩
    · exact ⟨⟨[], none, []⟩, fun h => absurd h hpd⟩
  choose A hA using hadd
  let sh := C57.shown limit hits
  have hlen : docs.length = sh.length := h5
  let pairs : List (C78.Added × ℚ) := List.zipWith (fun p x => (A p, x.dist)) docs sh
  have hpair : ∀ a ∈ pairs, ∃ p ∈ docs, ∃ x ∈ sh, a = (A p, x.dist) := by
    intro a ha
    obtain ⟨j, hj, rfl⟩ := List.getElem_of_mem ha
    simp only [pairs, List.length_zipWith] at hj
    exact ⟨docs[j], List.getElem_mem _, sh[j], List.getElem_mem _, by simp [pairs]⟩
  obtain ⟨ws, t, f1, f2, f3, f4⟩ := C78.found_partial odd name pairs
    (by intro a ha; obtain ⟨p, hp, x, -, rfl⟩ := hpair a ha; exact (hA p hp).2.1)
    (by intro a ha; obtain ⟨p, hp, x, -, rfl⟩ := hpair a ha; exact (hA p hp).2.2.1)
    (by intro a ha; obtain ⟨p, hp, x, -, rfl⟩ := hpair a ha; exact (hA p hp).2.2.2.1)
    (by intro a ha; obtain ⟨p, -, x, hx, rfl⟩ := hpair a ha; exact hfl x (hsub x hx))
  have hplen : pairs.length = sh.length := by simp [pairs, hlen]
  have htexts : (pairs.map fun a => stored (kept a.1.id a.1.n a.1.props)) = docs.map docText := by
    apply List.ext_getElem
    · simp [pairs, hlen]
    · intro j hj1 hj2
      simp only [List.length_map] at hj2
      simp only [pairs, List.getElem_map, List.getElem_zipWith]
      exact (hA _ (List.getElem_mem hj2)).1.symm
  have hds : (ds.map Num.fin).take (docs.map docText).length = ((pairs.map fun a => Num.fin a.2)).take (docs.map docText).length := by
    apply List.ext_getElem?
    intro j
    simp only [List.length_map, List.getElem?_take]
    split
    · rename_i hj
      obtain ⟨h7, -⟩ := h6 j sh[j] (List.getElem?_eq_getElem (by omega))
      simp only [List.getElem?_map, h7, Option.map_some, pairs, List.getElem?_zipWith]
      rw [List.getElem?_eq_getElem hj, List.getElem?_eq_getElem (by omega)]
      rfl
    · rfl
  have hfound : found odd name (docs.map docText) (ds.map .fin) = .ok t := by
    rw [← f1, htexts]
    unfold found
    rw [hits_take _ _ _ hds]
  have hget : ∀ (id : ℕ) (u : List ℚ), (s.entries.map fun e => e.2.map Num.val)[id]? = some u ↔
      ∃ x : Doc Num × List Num, s.entries[id]? = some x ∧ x.2.map Num.val = u := by
    intro id u
    rw [List.getElem?_map]
    cases s.entries[id]? <;> simp
  subst hq
  obtain ⟨g1, g2, g3⟩ := C65.near_hits avx junk (s.entries.map fun e => e.2.map Num.val) q
    (by
      intro u hu
      obtain ⟨x, hx, rfl⟩ := List.mem_map.1 hu
      rw [List.length_map]; exact (hent x hx).2)
    (by
      intro u hu
      obtain ⟨x, hx, rfl⟩ := List.mem_map.1 hu
      exact hm x hx)
    hqm max hits
    (h3.imp fun {a b} hab => by
      show decide (b.dist < a.dist) = false
      simpa using hab)
    (by
      intro id d
      rw [h4]
      have hz : ∀ a b : ℚ, (Dist.lt a b = false) ↔ b ≤ a := by
        intro a b
        show decide (a < b) = false ↔ _
        simp
      have hdist : ∀ x ∈ s.entries, ((metric32 avx junk).dist (norm32 q) (norm32 (x.2.map Num.val)) = some d ↔
          distance ops avx junk .cosine (normalize ops (vec q)) (normalize ops x.2) = .ok (.fin d)) := by
        intro x hx
        obtain ⟨e1, e2⟩ := hent x hx
        obtain ⟨d', a1, a2⟩ := (C65.always_numbers avx junk q (x.2.map Num.val)).2.1 (by simpa using e2.symm) (hqm.short.trans (by norm_num))
        rw [← numbers_vec e1] at a2
        rw [a1, a2]
        simp
      constructor
      · rintro ⟨x, a, c, e, f⟩
        exact ⟨_, (hget id _).2 ⟨x, a, rfl⟩, (hdist x (List.mem_of_getElem? a)).2 c, (hz _ _).2 e, (hz _ _).2 f⟩
      · rintro ⟨u, a, c, e, f⟩
        obtain ⟨x, a', rfl⟩ := (hget id u).1 a
        exact ⟨x, a', (hdist x (List.mem_of_getElem? a')).1 c, (hz _ _).1 e, (hz _ _).1 f⟩)
  refine ⟨t, hfound, hits, _, by rw [f2, if_neg hne]; rfl, by simp [f3, hplen, sh], ?_, h2, ?_, ?_, ?_⟩
  · intro j x hx
    obtain ⟨-, p, e, hp, he, hst⟩ := h6 j x hx
    have hpd := List.mem_of_getElem? hp
    obtain ⟨d, l, c1, c2, c3, c4⟩ := (hA p hpd).2.2.2.2 e _ (List.mem_of_getElem? he) hst
    have hpj : pairs[j]? = some (A p, x.dist) := by
      simp only [pairs, List.getElem?_zipWith, hp]
      rw [show sh[j]? = some x from hx]
    have hj : j < ws.length := by
      rw [f3]; exact (List.getElem?_eq_some_iff.1 hpj).1
    have hz : (pairs.zip ws)[j]? = some ((A p, x.dist), ws[j]) := by
      rw [List.getElem?_zip_eq_some]
      exact ⟨hpj, List.getElem?_eq_getElem hj⟩
    obtain ⟨k1, ⟨z, k2, k3⟩, -⟩ := f4 _ _ (List.mem_of_getElem? hz)
    refine ⟨e, d, l, ws[j], answerJ d.id ws[j], z, he, c1, c2, ?_, ⟨rfl, ?_⟩, k2, k3⟩
    · rw [List.getElem?_map, hz, Option.map_some, ← c3]
    · intro k hk
      have hk' : k ∉ [kId, kVector, kIndex] := fun h => hk (by
        simp only [List.mem_cons, List.not_mem_nil, or_false] at h ⊢
        tauto)
      rw [← c4 k hk']
      exact k1 k hk
  · intro x hx
    obtain ⟨u, a, c⟩ := g1 x hx
    obtain ⟨e, he, rfl⟩ := (hget _ _).1 a
    exact ⟨e, he, c⟩
  · intro id e he c1 c2
    exact g2 id _ ((hget _ _).2 ⟨e, he, rfl⟩) c1 c2
  · intro i j x y hij hx hy d e hd he
    exact g3 i j x y hij hx hy _ _ ((hget _ _).2 ⟨d, hd, rfl⟩) ((hget _ _).2 ⟨e, he, rfl⟩)

/-- **C83**: if the texts sent so far mean orderly requests (C57) with numbers only, vectors and query are moderate (C64) and properties are in the range of
64-bit floats (C78), then a search by vector is answered with a text that tells the truth. -/
theorem vector_search_partial (avx : Bool) (junk : ℕ → ℕ → Num) (uuid : Str → Bool) (odd : Option G → Text) (L : ℕ) (hL : L ≠ 0) (name : Text)
    (hne : name ≠ []) (dbs : Map (Db Num)) (hf : dbs.get (ns ++ name) = none) (rs : List TReq)
    (hpl : ∀ c ∈ rs.filterMap (meant uuid), Plain c) (ht : OrderlyRun List.length L 30 name Shelf.start (rs.filterMap (meant uuid)))
    (s : Shelf Num) (hs : s = Shelf.start.after List.length L name (rs.filterMap (meant uuid))) (hp : s.pod = true) (hth : s.there = true)
    (hn : s.entries ≠ []) (hm : ∀ x ∈ s.entries, Moderate (x.2.map Num.val))
    (hrange : ∀ r ∈ rs, ∀ d l, Says r name d l → ∀ k v, last l k = some v → k ∉ [kId, kVector, kIndex] → InRange v)
    (o : Oracle Num Num) (ho : o.Works) (body : Text) (b : VecB) (hb : Bodies.bind vecOf body = .ok b) (hbn : b.name = name)
    (q : List ℚ) (hbv : b.vec = some (vec q)) (hq : q.length = L) (hqm : Moderate q) (hlim : 0 ≤ b.limit) :
    ∃ (max : ℚ) (t : Text), b.dist = .fin max ∧
      (Texts.serve (envNum avx junk) uuid odd (Texts.run (envNum avx junk) uuid odd (World.fresh true dbs) rs) (.nearVector o body)).2 = .text (.ok t) ∧
      TellsTruth rs name s q max b.limit t := by
  obtain ⟨max, hmax⟩ := vecOf_dist hb
  obtain ⟨hits, docs, ds, h1, h2, h3, h4, h5, h6⟩ := search_exact_partial avx junk L hL name dbs hf _ hpl ht s hs hp hth hn o ho (vec q)
    (by simpa [vec] using hq) (vec_numbers (hqm.short.trans (by norm_num))) max b.limit hlim
  have hrun := run_meant (envNum avx junk) uuid odd rs (World.fresh true dbs)
  obtain ⟨w1, g1, g2⟩ := serve_nearVector h1
  obtain ⟨t, k1, k2⟩ := told avx junk uuid odd L name hne dbs hf rs hpl s hs hm hrange q hq hqm max b.limit hits docs ds
    (by rw [hrun]; exact C82.nearWith_mem g1 g2) h2 h3 h4 h5 h6
  refine ⟨max, t, hmax, ?_, k2⟩
  rw [hrun]
  simp only [Texts.serve, Texts.read, hb, handled, hbn, hne, if_false, hbv, hmax, h1, searched, k1]

/-- **C83**: the same for searches by text, `vec q` being what the vectoriser makes of the text, if the limit is at least the number of entries (see C19). -/
theorem text_search_partial (avx : Bool) (junk : ℕ → ℕ → Num) (uuid : Str → Bool) (odd : Option G → Text) (L : ℕ) (hL : L ≠ 0) (name : Text)
    (hne : name ≠ []) (dbs : Map (Db Num)) (hf : dbs.get (ns ++ name) = none) (rs : List TReq)
    (hpl : ∀ c ∈ rs.filterMap (meant uuid), Plain c) (ht : OrderlyRun List.length L 30 name Shelf.start (rs.filterMap (meant uuid)))
    (s : Shelf Num) (hs : s = Shelf.start.after List.length L name (rs.filterMap (meant uuid))) (hp : s.pod = true) (hth : s.there = true)
    (hn : s.entries ≠ []) (hm : ∀ x ∈ s.entries, Moderate (x.2.map Num.val))
    (hrange : ∀ r ∈ rs, ∀ d l, Says r name d l → ∀ k v, last l k = some v → k ∉ [kId, kVector, kIndex] → InRange v)
    (o : Oracle Num Num) (ho : o.Works) (hoa : o.Are Kept Numbers) (body : Text) (b : NearB) (hb : Bodies.bind nearOf body = .ok b) (hbn : b.name = name)
    (hbt : b.text ≠ []) (q : List ℚ) (hbv : o.corpi 0 b.text = .vec (vec q)) (hq : q.length = L) (hqm : Moderate q)
    (hlim : (s.entries.length : Int) ≤ b.limit) :
    ∃ (max : ℚ) (t : Text), b.dist = .fin max ∧
      (Texts.serve (envNum avx junk) uuid odd (Texts.run (envNum avx junk) uuid odd (World.fresh true dbs) rs) (.nearText o body)).2 = .text (.ok t) ∧
      TellsTruth rs name s q max b.limit t := by
  obtain ⟨max, hmax⟩ := nearOf_dist hb
  obtain ⟨hits, docs, ds, h1, h2, h3, h4, h5, h6⟩ := text_search_exact_partial avx junk L hL name dbs hf _ hpl ht s hs hp hth hn o ho hoa b.text (vec q) hbv
    (by simpa [vec] using hq) (vec_numbers (hqm.short.trans (by norm_num))) max b.limit hlim
  have hrun := run_meant (envNum avx junk) uuid odd rs (World.fresh true dbs)
  obtain ⟨w1, v, g1, g2⟩ := serve_nearText h1
  obtain ⟨t, k1, k2⟩ := told avx junk uuid odd L name hne dbs hf rs hpl s hs hm hrange q hq hqm max b.limit hits docs ds
    (by rw [hrun]; exact C82.nearWith_mem g1 g2) h2 h3 h4 h5 h6
  refine ⟨max, t, hmax, ?_, k2⟩
  rw [hrun]
  simp only [Texts.serve, Texts.read, hb, handled, hbn, hne, if_false, hbt, hmax, h1, searched, k1]

/-! ## A case -/

/-- `3`, `4`, … -/
def digit (n : Char) : J := .num ⟨false, [n], none, none⟩
def propsA : List (Text × J) := [("title".toList, .str ['A']), (kVector, .arr [digit '3', digit '4']), ("year".toList, digit '7')]
def propsB : List (Text × J) := [("title".toList, .str ['B']), (kVector, .arr [.num ⟨true, ['4'], none, none⟩, digit '3'])]
def addB : AddB := ⟨some [some ⟨['a'], some (.obj propsA)⟩, some ⟨['b'], some (.obj propsB)⟩], C66.books, some []⟩
def creating : Text := render true (collJ ⟨some [], C66.books⟩)
def adding : Text := render true (addJ addB)
def asked : VecB := ⟨.fin 2, 0, C66.books, some (vec [2, 3])⟩
def oracle : Oracle Num Num := C66.oracle [vec [3, 4], vec [-4, 3]]
def story : List TReq := [.login true, .openPod true, .create oracle creating, .add oracle adding]
def uuid : Str → Bool := fun _ => true

example : creating = "{\"indexes\":[],\"name\":\"books\"}".toList ∧ adding =
    ("{\"documents\":[{\"id\":\"a\",\"properties\":{\"title\":\"A\",\"vector\":[3,4],\"year\":7}}," ++
     "{\"id\":\"b\",\"properties\":{\"title\":\"B\",\"vector\":[-4,3]}}],\"name\":\"books\",\"propertiesToVectorize\":[]}").toList ∧
    (vecJ asked).map (render true) = some "{\"distance\":2,\"name\":\"books\",\"vector\":[2,3]}".toList := by
  decide +kernel

theorem ok_digit {n : Char} (h : n.isDigit = true) (h0 : n ≠ '0') : (digit n).Ok := .num _ ⟨⟨by simp, by simpa using h⟩, by simp, by simp, by simp⟩

theorem propsA_ok : ∀ m ∈ propsA, m.2.Ok := by
  intro m hm
  simp only [propsA, List.mem_cons, List.not_mem_nil, or_false] at hm
  rcases hm with rfl | rfl | rfl
  · exact .str _
  · refine .arr _ fun v hv => ?_
    simp only [List.mem_cons, List.not_mem_nil, or_false] at hv
    rcases hv with rfl | rfl <;> exact ok_digit (by decide) (by decide)
  · exact ok_digit (by decide) (by decide)
theorem propsB_ok : ∀ m ∈ propsB, m.2.Ok := by
  intro m hm
  simp only [propsB, List.mem_cons, List.not_mem_nil, or_false] at hm
  rcases hm with rfl | rfl
  · exact .str _
  · refine .arr _ fun v hv => ?_
    simp only [List.mem_cons, List.not_mem_nil, or_false] at hv
    rcases hv with rfl | rfl
    · exact .num _ ⟨⟨by simp, by decide⟩, by simp, by simp, by simp⟩
    · exact ok_digit (by decide) (by decide)

theorem adding_read : Bodies.bind addOf adding = .ok addB := by
  refine C80.add_back ?_
  rintro l ⟨⟩ d hd p hp
  simp only [List.mem_cons, List.not_mem_nil, or_false, Option.some.injEq] at hd
  rcases hd with rfl | rfl
  · simp only [Option.some.injEq] at hp
    subst hp
    exact ⟨.obj _ propsA_ok, rfl, by simp⟩
  · simp only [Option.some.injEq] at hp
    subst hp
    exact ⟨.obj _ propsB_ok, rfl, by simp⟩

def meantAdd : Req Num Num := .add oracle C66.books [] [some ⟨['a'], props propsA⟩, some ⟨['b'], props propsB⟩]

theorem story_meant : story.filterMap (meant uuid) = [.login true, .openPod true, .create oracle C66.books [], meantAdd] := by
  simp only [story, List.filterMap_cons, List.filterMap_nil, meant, adding_read, creating, C80.coll_back]
  rfl

theorem works : oracle.Works :=
  ⟨rfl, rfl, rfl, rfl, rfl, rfl, rfl, rfl, rfl, rfl, rfl, fun _ => rfl, fun _ => rfl, fun _ => rfl, rfl, fun _ _ => ⟨_, rfl⟩⟩

theorem vectorA : (props propsA).get vectorName = some (.list [.number (some (.fin 3)), .number (some (.fin 4))]) := by decide +kernel
theorem vectorB : (props propsB).get vectorName = some (.list [.number (some (.fin (-4))), .number (some (.fin 3))]) := by decide +kernel

theorem plain : ∀ c ∈ story.filterMap (meant uuid), Plain c := by
  rw [story_meant]
  intro c hc
  simp only [List.mem_cons, List.not_mem_nil, or_false] at hc
  rcases hc with rfl | rfl | rfl | rfl
  · trivial
  · trivial
  · trivial
  · have hn : ∀ {a b : ℚ}, Numbers (vec [a, b]) := fun {a b} => vec_numbers (by simp)
    refine ⟨⟨?_, ?_⟩, ?_⟩
    · intro i l a n id v h
      match id with
      | 0 => cases h; exact ⟨vec [3, 4], hn, rfl⟩
      | 1 => cases h; exact ⟨vec [-4, 3], hn, rfl⟩
      | n + 2 => simp [oracle, C66.oracle] at h
    · intro i t v h
      cases h
      exact hn (a := 1) (b := 1)
    · intro d hd
      simp only [List.mem_cons, List.not_mem_nil, or_false, Option.some.injEq] at hd
      rcases hd with rfl | rfl
      · refine ⟨fun l v hl hv => ?_, fun v hv => ?_⟩
        · rw [vectorA] at hl
          cases hl
          rw [show v = vec [3, 4] by
            match v, hv with
            | [a, b], hv => simpa [Elem.value, vec, eq_comm] using hv]
          exact hn
        · rw [vectorA] at hv; cases hv
      · refine ⟨fun l v hl hv => ?_, fun v hv => ?_⟩
        · rw [vectorB] at hl
          cases hl
          rw [show v = vec [-4, 3] by
            match v, hv with
            | [a, b], hv => simpa [Elem.value, vec, eq_comm] using hv]
          exact hn
        · rw [vectorB] at hv; cases hv

theorem story_entries : (Shelf.start.after List.length 2 C66.books (story.filterMap (meant uuid)) : Shelf Num) =
    ⟨true, true, true, [(⟨['a'], props propsA⟩, vec [3, 4]), (⟨['b'], props propsB⟩, vec [-4, 3])]⟩ := by
  rw [story_meant]
  have h1 : ∀ i, vectorOf oracle [] i ⟨['a'], props propsA⟩ = some (vec [3, 4]) := by
    intro i; simp only [vectorOf, vectorA]; decide +kernel
  have h2 : ∀ i, vectorOf oracle [] i ⟨['b'], props propsB⟩ = some (vec [-4, 3]) := by
    intro i; simp only [vectorOf, vectorB]; decide +kernel
  simp [Shelf.after, Shelf.next, meantAdd, taken, h1, h2, Shelf.start, vec]

theorem orderly : OrderlyRun List.length 2 30 C66.books Shelf.start (story.filterMap (meant uuid)) := by
  have h1 : ∀ i, vectorOf oracle [] i ⟨['a'], props propsA⟩ = some (vec [3, 4]) := by
    intro i; simp only [vectorOf, vectorA]; decide +kernel
  have h2 : ∀ i, vectorOf oracle [] i ⟨['b'], props propsB⟩ = some (vec [-4, 3]) := by
    intro i; simp only [vectorOf, vectorB]; decide +kernel
  rw [story_meant]
  refine ⟨trivial, trivial, fun _ => works, fun _ => ⟨works, ?_, ?_, ?_, ?_⟩, trivial⟩
  · intro x hx
    simp only [List.mem_cons, List.not_mem_nil, or_false] at hx
    rcases hx with rfl | rfl
    · exact ⟨_, rfl, .inl ⟨_, vec [3, 4], vectorA, rfl⟩⟩
    · exact ⟨_, rfl, .inl ⟨_, vec [-4, 3], vectorB, rfl⟩⟩
  · intro _ i d v g1 g2
    match i with
    | 0 => cases g1; rw [h1] at g2; cases g2; rfl
    | 1 => cases g1; rw [h2] at g2; cases g2; rfl
    | n + 2 => simp at g1
  · simp [taken, h1, h2, vec]
  · simp [taken, h1, h2, vec, Shelf.next, Shelf.start]

theorem story_range : ∀ r ∈ story, ∀ d l, Says r C66.books d l → ∀ k v, last l k = some v → k ∉ [kId, kVector, kIndex] → InRange v := by
  rintro r hr d l ⟨o, body, b, ds, rfl, hb, -, hds, hd, hp⟩ k v hv hk
  simp only [story, List.mem_cons, List.not_mem_nil, or_false, reduceCtorEq, false_or, TReq.add.injEq] at hr
  obtain ⟨rfl, rfl⟩ := hr
  rw [adding_read, Bound.ok.injEq] at hb
  subst hb
  simp only [addB, Option.some.injEq] at hds
  subst hds
  simp only [List.mem_cons, List.not_mem_nil, or_false, Option.some.injEq] at hd
  rcases hd with rfl | rfl
  all_goals
    simp only [Option.some.injEq, J.obj.injEq] at hp
    subst hp
    have hm := last_mem hv
    simp only [propsA, propsB, List.mem_cons, List.not_mem_nil, or_false, Prod.mk.injEq] at hm
  · rcases hm with ⟨-, rfl⟩ | ⟨rfl, -⟩ | ⟨-, rfl⟩
    · exact .str _
    · simp at hk
    · exact .num _ 7 (by decide +kernel)
  · rcases hm with ⟨-, rfl⟩ | ⟨rfl, -⟩
    · exact .str _
    · simp at hk

theorem moderate23 : Moderate [2, 3] := by simpa using moderate_int [2, 3] (by decide) (by decide) (by decide)

theorem entries_moderate : ∀ x ∈ ([(⟨['a'], props propsA⟩, vec [3, 4]), (⟨['b'], props propsB⟩, vec [-4, 3])] : List (Doc Num × List Num)),
    Moderate (x.2.map Num.val) := by
  intro x hx
  simp only [List.mem_cons, List.not_mem_nil, or_false] at hx
  rcases hx with rfl | rfl
  · rw [val_vec]; simpa using moderate_int [3, 4] (by decide) (by decide) (by decide)
  · rw [val_vec]; simpa using moderate_int [-4, 3] (by decide) (by decide) (by decide)

/-- the hypotheses are met, and so the answer to the search is right -/
example (avx : Bool) (junk : ℕ → ℕ → Num) (odd : Option G → Text) : ∃ (j : J) (t : Text), vecJ asked = some j ∧
    (Texts.serve (envNum avx junk) uuid odd (Texts.run (envNum avx junk) uuid odd (World.fresh true []) story) (.nearVector oracle (render true j))).2 =
      .text (.ok t) ∧
    TellsTruth story C66.books ⟨true, true, true, [(⟨['a'], props propsA⟩, vec [3, 4]), (⟨['b'], props propsB⟩, vec [-4, 3])]⟩ [2, 3] 2 0 t := by
  obtain ⟨j, h1, h2⟩ := C80.vec_back (html := true) (x := 2) ⟨2, 0, by norm_num, by norm_num, by norm_num, by norm_num⟩ (n := 0) (by norm_num) C66.books
    (vec := some (vec [2, 3])) (by
      rintro v ⟨⟩ c hc
      simp only [vec, List.map_cons, List.map_nil, List.mem_cons, List.not_mem_nil, or_false] at hc
      rcases hc with rfl | rfl
      · exact ⟨2, rfl, 2, 0, by norm_num, by norm_num, by norm_num, by norm_num⟩
      · exact ⟨3, rfl, 3, 0, by norm_num, by norm_num, by norm_num, by norm_num⟩)
  obtain ⟨max, t, h3, h4, h5⟩ := vector_search_partial avx junk uuid odd 2 (by decide) C66.books (by decide) [] rfl story plain orderly _ story_entries.symm rfl rfl
    (by simp) entries_moderate
    story_range oracle works _ _ h2 rfl [2, 3] rfl rfl moderate23 (le_refl _)
  cases h3
  exact ⟨j, t, h1, h4, h5⟩

/-- the same for a search by text; the vectoriser answers [1, 1] -/
example (avx : Bool) (junk : ℕ → ℕ → Num) (odd : Option G → Text) : ∃ (j : J) (t : Text), nearJ ⟨.fin 2, 5, C66.books, ['t']⟩ = some j ∧
    (Texts.serve (envNum avx junk) uuid odd (Texts.run (envNum avx junk) uuid odd (World.fresh true []) story) (.nearText oracle (render true j))).2 =
      .text (.ok t) ∧
    TellsTruth story C66.books ⟨true, true, true, [(⟨['a'], props propsA⟩, vec [3, 4]), (⟨['b'], props propsB⟩, vec [-4, 3])]⟩ [1, 1] 2 5 t := by
  obtain ⟨j, h1, h2⟩ := C80.near_back (html := true) (x := 2) ⟨2, 0, by norm_num, by norm_num, by norm_num, by norm_num⟩ (n := 5) (by norm_num) C66.books ['t']
  have hoa : oracle.Are Kept Numbers := by
    have := plain meantAdd (by rw [story_meant]; simp)
    exact this.1
  obtain ⟨max, t, h3, h4, h5⟩ := text_search_partial avx junk uuid odd 2 (by decide) C66.books (by decide) [] rfl story plain orderly _ story_entries.symm rfl rfl
    (by simp) entries_moderate story_range oracle works hoa _ _ h2 rfl (by simp) [1, 1] rfl rfl
    (by simpa using moderate_int [1, 1] (by decide) (by decide) (by decide)) (by simp)
  cases h3
  exact ⟨j, t, h1, h4, h5⟩

-- this is the text
example : C82.said (Texts.serve C66.E uuid C82.odd (Texts.run C66.E uuid C82.odd (World.fresh true []) story)
    (.nearVector oracle "{\"distance\":2,\"name\":\"books\",\"vector\":[2,3]}".toList)).2 = (some
      ("{\"documents\":[{\"id\":\"a\",\"properties\":{\"distance\":0.001539588,\"hnswId\":0,\"title\":\"A\",\"year\":7}}," ++
       "{\"id\":\"b\",\"properties\":{\"distance\":0.94452995,\"hnswId\":1,\"title\":\"B\"}}],\"name\":\"books\"}\n").toList, false) := by
  decide +kernel

/-- The full claim is false: the document whose vector is the one asked for is not in the answer, the distance being negative after rounding (C65). -/
theorem exact_match_missing : C82.said (Texts.serve C66.E uuid C82.odd (Texts.run C66.E uuid C82.odd (World.fresh true [])
      [.login true, .openPod true, .create oracle creating, .add (C66.oracle [vec [2, 3]])
        ("{\"name\":\"books\",\"propertiesToVectorize\":[],\"documents\":[{\"id\":\"a\",\"properties\":{\"vector\":[2,3]}}]}").toList])
    (.nearVector oracle "{\"distance\":2,\"name\":\"books\",\"vector\":[2,3]}".toList)).2 =
    (some "{\"documents\":[],\"name\":\"books\"}\n".toList, false) := by
  decide +kernel

end
end Fave.C83
