import Verif.Lemmas.Api
import Verif.Spec.ExampleClient
/-!
# C73: every operation of the interface description is served by its own handler
-/
namespace Fave.C73
open Api Rest
open Client (Str Map World Env)
variable {H B C : Type}

/-- After any sequence of calls that made the registry, the handler for a method and a path is the one of the operation that the description
of the interface has there — for nothing else there is a handler — with the handler that was set last before the registry was made and the
middleware that was added for this operation, in the order of the calls. -/
theorem served_as_described (up : Str → Str) (hu : Upper up) (ni : Name → H) (j jo : C) (cs : List (Call H B C)) (a : Api H B C)
    (h : run up (new ni j jo) cs = some a) (hm : made cs = true) (m p : Str) :
    handlerFor up a m p = (describedAt (up m) p).map (fun n => wrap (.op n (bound n (some (ni n)) cs)) (builders up n cs)) := by
  have hs := shape_run hu (shape_new up ni j jo) h
  obtain ⟨t, h1, _, h3⟩ := hs.after hm
  have := h3 (up m) (short p) (short_ne p)
  rw [describedAt_short] at this
  rw [List.nil_append] at this
  rw [← this]
  unfold handlerFor entry
  rw [h1]
  simp only
  cases t.get (up m) <;> rfl

/-- the example of `strings.ToUpper`, for letters without accents -/
def upper (s : Str) : Str := s.map Char.toUpper

/-- it behaves as assumed on the three methods -/
theorem upper_ok : Upper upper := ⟨by decide +kernel, by decide +kernel, by decide +kernel⟩

/-- a registry with two builders around one operation and one around the root -/
def someCalls : List (Call Nat Nat Nat) :=
  [.setHandler .create (some 7), .addMiddleware post "/collections".toList 1, .setHandler .create (some 8), .addMiddleware get ['/'] 3,
   .addMiddleware post "/collections".toList 2]

example : made someCalls = true ∧ (run upper (new (fun _ => 0) 0 0) someCalls).isSome = true ∧
    (run upper (new (fun _ => 0) 0 0) someCalls).bind (fun a => handlerFor upper a "post".toList "/collections".toList) =
      some (.wrapped 2 (.wrapped 1 (.op .create (some 7)))) ∧
    (run upper (new (fun _ => 0) 0 0) someCalls).bind (fun a => handlerFor upper a "Get".toList []) =
      some (.wrapped 3 (.op .root (some 0))) ∧
    (run upper (new (fun _ => 0) 0 0) someCalls).bind (fun a => handlerFor upper a delete "/collections".toList) = none := by
  decide +kernel

/-- The description has eight operations, each in one place, and every one of them belongs to an operation of the registry with the same
operation id. -/
theorem description_complete :
    (∀ r ∈ described, ∃ n, describedAt r.method r.path = some n ∧ n.id = r.id) ∧
    (∀ n : Name, ∃ r ∈ described, describedAt r.method r.path = some n) ∧
    (∀ m p m' p' n, describedAt m p = some n → describedAt m' p' = some n → m = m' ∧ long p = long p') := by
  refine ⟨?_, ?_, ?_⟩
  · intro r hr
    simp only [described, List.mem_cons, List.not_mem_nil, or_false] at hr
    rcases hr with rfl | rfl | rfl | rfl | rfl | rfl | rfl | rfl
    · exact ⟨.root, by decide +kernel⟩
    · exact ⟨.collections, by decide +kernel⟩
    · exact ⟨.create, by decide +kernel⟩
    · exact ⟨.delete, by decide +kernel⟩
    · exact ⟨.documents, by decide +kernel⟩
    · exact ⟨.add, by decide +kernel⟩
    · exact ⟨.nearest, by decide +kernel⟩
    · exact ⟨.nearestByVector, by decide +kernel⟩
  · intro n
    cases n <;> decide +kernel
  · intro m p m' p' n h h'
    rw [← describedAt_short] at h h'
    have e := (describedAt_iff (short_ne p) n).1 h
    have e' := (describedAt_iff (short_ne p') n).1 h'
    have := e.symm.trans e'
    injection this with e1 e2
    exact ⟨e1, by rw [← long_short p, ← long_short p', e2]⟩

example : describedAt post "/nearest-documents".toList = some .nearest ∧ describedAt post ['/'] = none ∧ described.length = 8 := by
  decide +kernel

/-- Before the registry is made no method and path has a handler. -/
theorem nothing_before (up : Str → Str) (hu : Upper up) (ni : Name → H) (j jo : C) (cs : List (Call H B C)) (a : Api H B C)
    (h : run up (new ni j jo) cs = some a) (hm : made cs = false) (m p : Str) : handlerFor up a m p = none := by
  have hs := shape_run hu (shape_new up ni j jo) h
  have := (hs.before hm).1
  unfold handlerFor
  rw [this]
  rfl

example : made ([.setHandler .root none, .registerConsumer jsonType 4] : List (Call Nat Nat Nat)) = false := rfl

/-- Calls panic exactly if one of them puts middleware around a described operation and does not write the method in capitals. -/
theorem panics_exactly (up : Str → Str) (hu : Upper up) (ni : Name → H) (j jo : C) (cs : List (Call H B C)) :
    run up (new ni j jo) cs = none ↔ ∃ c ∈ cs, c.misspelt up := by
  suffices hs : ∀ (ds : List (Call H B C)) (es : List (Call H B C)) (a : Api H B C), Shape up (fun n => some (ni n)) es a →
      (run up a ds = none ↔ ∃ c ∈ ds, c.misspelt up) from hs cs [] _ (shape_new up ni j jo)
  intro ds
  induction ds with
  | nil => intro es a _; simp [run]
  | cons c ds ih =>
    intro es a h
    simp only [run, List.mem_cons]
    cases hc : step up a c with
    | some x =>
      have := ih _ x (shape_step hu h hc)
      simp only [this]
      constructor
      · rintro ⟨d, hd, hx⟩; exact ⟨d, Or.inr hd, hx⟩
      · rintro ⟨d, hd | hd, hx⟩
        · subst hd
          exfalso
          cases d <;> simp only [Call.misspelt] at hx
          next m p b =>
          rcases addMiddleware_cases up hu h m p b with ⟨h1, _⟩ | ⟨n, _, _, he⟩ | ⟨n, t, _, hm, _⟩
          · obtain ⟨n, hn⟩ := hx.1
            rw [h1] at hn; cases hn
          · have := he.symm.trans hc; cases this
          · exact hx.2 hm
        · exact ⟨d, hd, hx⟩
    | none =>
      simp only [true_iff]
      refine ⟨c, Or.inl rfl, ?_⟩
      cases c with
      | addMiddleware m p b =>
        rcases addMiddleware_cases up hu h m p b with ⟨_, he⟩ | ⟨n, h1, h2, _⟩ | ⟨n, t, _, _, _, he⟩
        · have := he.symm.trans hc; cases this
        · exact ⟨⟨n, h1⟩, h2⟩
        · have := he.symm.trans hc; cases this
      | setHandler _ _ | setJson _ | setJsonOut _ | registerConsumer _ _ | registerProducer _ _ | init | serve => cases hc

/-- middleware for "post" instead of "POST" ends the process; for a path that is not described nothing happens -/
example : run upper (new (fun _ => 0) 0 0 : Api Nat Nat Nat) [.addMiddleware "post".toList "/documents".toList 1] = none ∧
    (run upper (new (fun _ => 0) 0 0 : Api Nat Nat Nat) [.addMiddleware "post".toList "/document".toList 1]).isSome = true := by
  constructor
  · rw [panics_exactly upper upper_ok]
    exact ⟨_, List.mem_singleton.2 rfl, ⟨.add, by decide +kernel⟩, by decide +kernel⟩
  · decide +kernel

/-- Handlers, consumers and producers that are set after the registry was made change nothing in it. -/
theorem late_settings_ignored (up : Str → Str) (hu : Upper up) (ni : Name → H) (j jo : C) (cs ds : List (Call H B C)) (a a' : Api H B C)
    (h : run up (new ni j jo) cs = some a) (hm : made cs = true)
    (hd : ∀ c ∈ ds, ∀ m p b, c ≠ .addMiddleware m p b) (h' : run up a ds = some a') (m p : Str) :
    handlerFor up a' m p = handlerFor up a m p := by
  have hr : run up (new ni j jo) (cs ++ ds) = some a' := by rw [run_append, h]; exact h'
  have hm' : made (cs ++ ds) = true := by
    unfold made at *
    rw [List.any_append, hm]; rfl
  rw [served_as_described up hu ni j jo _ a' hr hm', served_as_described up hu ni j jo _ a h hm]
  congr 1
  funext n
  rw [bound_made n _ cs ds hm, builders_append]
  have : builders up n ds = [] := by
    clear h' hr hm'
    induction ds with
    | nil => rfl
    | cons c ds ih =>
      have hi := ih (fun x hx => hd x (List.mem_cons_of_mem _ hx))
      cases c with
      | addMiddleware m p b => exact absurd rfl (hd _ List.mem_cons_self m p b)
      | setHandler _ _ | setJson _ | setJsonOut _ | registerConsumer _ _ | registerProducer _ _ | init | serve => exact hi
  rw [this]; rfl

example : ((run upper (new (fun _ => 0) 0 0 : Api Nat Nat Nat) [.init]).bind (fun a => run upper a [.setHandler .add (some 5), .serve])).bind
    (fun a => handlerFor upper a post "/documents".toList) = some (.op .add (some 0)) := by decide +kernel

/-- Once the server is configured, and whatever is called afterwards, every described operation is served by the method of the handler that
is meant for it; none is left "not implemented". -/
theorem configured (up : Str → Str) (hu : Upper up) (ni : Name → Method) (j jo j' jo' : C) (ds : List (Call Method B C))
    (a : Api Method B C) (h : run up (new ni j jo) (configureCalls j' jo' ++ ds) = some a) (m p : Str) (n : Name)
    (hd : describedAt (up m) p = some n) : ∃ l, handlerFor up a m p = some (wrap (.op n (some n.meant)) l) := by
  have hm : made (configureCalls j' jo' ++ ds : List (Call Method B C)) = true := by
    unfold made; rw [List.any_append]; rfl
  rw [served_as_described up hu ni j jo _ a h hm, hd]
  refine ⟨builders up n (configureCalls j' jo' ++ ds), ?_⟩
  simp only [Option.map_some]
  have : bound n (some (ni n)) (configureCalls j' jo' ++ ds : List (Call Method B C)) = some n.meant := by
    rw [bound_made n _ _ _ (by rfl)]
    cases n <;> rfl
  rw [this]

example : ((run upper (new (fun _ => .rootHandler) 0 0 : Api Method Nat Nat) (configureCalls 1 1)).bind
    (fun a => handlerFor upper a get "/documents".toList)) = some (.op .documents (some .getDocuments)) := by decide +kernel

/-- the part is there -/
def present (a : Api H B C) : Part → Prop
  | .consumer => a.json ≠ none
  | .producer => a.jsonOut ≠ none
  | .handler n => a.fields n ≠ none

/-- `Validate` reports exactly the parts that are missing, each once. -/
theorem validate_exactly (a : Api H B C) : (∀ p : Part, p ∈ validate a ↔ ¬ present a p) ∧ (validate a).Nodup := by
  have key : ∀ {α : Type} (o : Option α) (x p : Part), p ∈ (if o.isNone then [x] else []) ↔ o = none ∧ p = x := by
    intro α o x p
    cases o <;> simp
  refine ⟨fun p => ?_, ?_⟩
  · unfold validate
    simp only [List.mem_append, key]
    cases p with
    | consumer => simp [present]
    | producer => simp [present]
    | handler n => cases n <;> simp [present]
  · have hsub : (validate a).Sublist ([.consumer, .producer] ++ Name.all.map Part.handler) := by
      unfold validate
      have one : ∀ {α : Type} (o : Option α) (x : Part), (if o.isNone then [x] else []).Sublist [x] := by
        intro α o x
        cases o with
        | none => exact List.Sublist.refl _
        | some _ => exact List.nil_sublist _
      exact ((((((((((one _ _).append (one _ _)).append (one _ _)).append (one _ _)).append (one _ _)).append (one _ _)).append (one _ _)).append
        (one _ _)).append (one _ _)).append (one _ _))
    exact hsub.nodup (by decide)

/-- a new API is complete; one without consumer and with two handlers removed is not -/
example : validate (new (fun _ => 0) 0 0 : Api Nat Nat Nat) = [] ∧
    (run upper (new (fun _ => 0) 0 0 : Api Nat Nat Nat) [.setJson none, .setHandler .root none, .setHandler .add none]).map validate =
      some [.consumer, .handler .add, .handler .root] := by decide +kernel

theorem mediaFor_get (json : Option C) (custom : Map C) (l : List Str) (r : Map (Option C)) (mt : Str) :
    (mediaFor json custom l r).get mt =
      if mt ∈ l then
        match custom.get mt with
        | some c => some (some c)
        | none => if mt = jsonType then some json else r.get mt
      else r.get mt := by
  induction l generalizing r with
  | nil => rfl
  | cons x l ih =>
    simp only [mediaFor]
    rw [ih]
    by_cases hx : mt = x
    · subst hx
      simp only [List.mem_cons, true_or, if_true]
      cases hc : custom.get mt with
      | some c => simp [get_set_self]
      | none =>
        by_cases hj : mt = jsonType
        · subst hj; simp [get_set_self]
        · simp [hj]
    · have hx' : x ≠ mt := fun h => hx h.symm
      have e0 : (if x = jsonType then r.set jsonType json else r).get mt = r.get mt := by
        by_cases hj : x = jsonType
        · rw [if_pos hj, get_set_other]
          rw [← hj]; exact hx
        · rw [if_neg hj]
      cases custom.get x with
      | none => simp only [e0, List.mem_cons, hx, false_or]
      | some c => simp only [get_set_other _ hx, e0, List.mem_cons, hx, false_or]

/-- For a list of media types there is a consumer exactly for those of the list that were registered and for `application/json`; a
registered one takes precedence.  (The same function serves the producers.) -/
theorem consumers_exactly (a : Api H B C) (l : List Str) (mt : Str) :
    (consumersFor a l).get mt =
      if mt ∈ l then
        match a.consumers.get mt with
        | some c => some (some c)
        | none => if mt = jsonType then some a.json else none
      else none := by
  unfold consumersFor
  rw [mediaFor_get]
  rfl

/-- see `consumers_exactly` -/
theorem producers_exactly (a : Api H B C) (l : List Str) (mt : Str) :
    (producersFor a l).get mt =
      if mt ∈ l then
        match a.producers.get mt with
        | some c => some (some c)
        | none => if mt = jsonType then some a.jsonOut else none
      else none := by
  unfold producersFor
  rw [mediaFor_get]
  rfl

example : (run upper (new (fun _ => 0) 1 1 : Api Nat Nat Nat) [.registerConsumer "text/plain".toList 9]).map
    (fun a => (consumersFor a ["text/plain".toList, "image/png".toList, jsonType]).map Prod.snd) = some [some 9, some 1] := by
  decide +kernel

section statuses
variable {F D : Type} [Dist D] [DecidableEq F]

/-- the statuses that handlers answer with -/
theorem status_cases (r : Resp F D) {s : Nat} (h : status r = some s) : s = 200 ∨ s = 400 ∨ (s = 422 ∧ r = .unprocessable) := by
  cases r <;> simp [status] at h <;> subst h <;> simp

/-- what the operations other than the root declare -/
theorem declares_most {n : Name} (h : n ≠ .root) : declares n 200 ∧ declares n 400 ∧ (n ≠ .documents → declares n 422) := by
  cases n <;> first | exact absurd rfl h | decide +kernel

/-- Every answer of a handler has a status that the description declares for the operation; and so has every refusal of a body.  Missing,
because false: a look-up with an empty parameter (`undeclared_status`). -/
theorem declared_partial (E : Env F D) (uuid : Str → Bool) (w : World F) (q : HReq F D) (s : Nat)
    (hs : status (handle E uuid w q).2 = some s)
    (hq : ∀ o sat name property value, q = .get o sat name property value → name ≠ [] ∧ property ≠ [] ∧ value ≠ []) :
    declares (nameOf q) s := by
  have hn : nameOf q ≠ .root := by cases q <;> exact fun h => by cases h
  rcases status_cases _ hs with rfl | rfl | ⟨rfl, hr⟩
  · exact (declares_most hn).1
  · exact (declares_most hn).2.1
  · cases q with
    | get o sat name property value =>
      exfalso
      obtain ⟨h1, h2, h3⟩ := hq _ _ _ _ _ rfl
      simp only [handle, h1, h2, h3, false_or, if_false] at hr
      revert hr
      cases (Client.serve E w (.get o sat name property value)).2 with
      | doc p => simp only; cases decodeProps p <;> simp
      | failed e => cases e <;> simp [refusal]
      | done | names _ | near _ _ => simp
    | create | delete | list | add | nearText | nearVector => exact (declares_most hn).2.2 (fun h => by cases h)

example : ∃ q : HReq Nat Nat, status (handle ExC.E (fun _ => true) ExC.w0 q).2 = some 400 ∧ nameOf q = .create :=
  ⟨.create ExC.o [] none, rfl, rfl⟩

/-- a body that is missing, empty, not JSON or not valid is refused with a declared status -/
theorem refused_body_declared {α : Type} (valid : α → Bool) (x : Body α) (s : Nat) (h : bindBody valid x = .error s) (n : Name)
    (hn : n = .create ∨ n = .add ∨ n = .nearest ∨ n = .nearestByVector) : declares n s := by
  have : s = 422 ∨ s = 400 := by
    cases x with
    | absent => cases h; exact Or.inl rfl
    | blank => cases h; exact Or.inl rfl
    | broken => cases h; exact Or.inr rfl
    | value a =>
      simp only [bindBody] at h
      by_cases hv : valid a = true
      · rw [if_pos hv] at h; cases h
      · rw [if_neg hv] at h; cases h; exact Or.inl rfl
  rcases hn with rfl | rfl | rfl | rfl <;> rcases this with rfl | rfl <;> decide +kernel

example : bindBody (fun n : Nat => n ≠ 3) (.value 3) = .error 422 ∧ bindBody (fun n : Nat => n ≠ 3) .broken = .error 400 := ⟨rfl, rfl⟩

/-- A look-up with an empty parameter is answered with 422, which the description does not declare for it. -/
theorem undeclared_status : ∃ (q : HReq Nat Nat), status (handle ExC.E (fun _ => true) ExC.w0 q).2 = some 422 ∧ ¬ declares (nameOf q) 422 :=
  ⟨.get ExC.o (fun _ _ => true) ExC.books ['a'] [], rfl, by decide +kernel⟩

/-- No handler ever answers 401, 403, 404 or 500, though the description declares them: whatever fails is a 400, also a look-up that finds
nothing. -/
theorem never_not_found (E : Env F D) (uuid : Str → Bool) (w : World F) (q : HReq F D) (s : Nat)
    (hs : status (handle E uuid w q).2 = some s) : s ≠ 401 ∧ s ≠ 403 ∧ s ≠ 404 ∧ s ≠ 500 := by
  rcases status_cases _ hs with rfl | rfl | ⟨rfl, _⟩ <;> decide

end statuses

end Fave.C73
