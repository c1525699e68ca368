import Verif.Lemmas.Start
import Verif.Spec.ExampleClient
/-!
# C71 — a server that serves is logged in, has its pod open, and has a vectoriser exactly if one is configured
-/
namespace Fave
namespace C71
open Client Rest Start
variable {F D : Type} [Dist D] [DecidableEq F]

/-- The configuration: each value is that of its variable; only the address of the Bee node and the stamp have another value if the
variable is not set; "verbose" is on for exactly four words. -/
theorem configuration (env : Environment) :
    let c := setDefaults (fromEnv env Config.zero)
    (c.beeApi = if env .beeApi = [] then defaultBee else env .beeApi) ∧
    (c.stampId = if env .stampId = [] then List.replicate 64 '0' else env .stampId) ∧
    c.rpcEndpoint = env .rpcApi ∧ c.vectorizerUrl = env .vectorizerUrl ∧ c.username = env .user ∧ c.password = env .password ∧ c.pod = env .pod ∧
    (c.verbose = true ↔ env .verbose ∈ [['o', 'n'], ['e', 'n', 'a', 'b', 'l', 'e', 'd'], ['1'], ['t', 'r', 'u', 'e']]) := by
  intro c
  have hc : c = _ := config_eq env
  rw [hc]
  refine ⟨rfl, rfl, rfl, rfl, rfl, rfl, rfl, ?_⟩
  show enabled (env .verbose) = true ↔ _
  unfold enabled
  by_cases h : env .verbose = []
  · simp [h]
  · simp [h]

/-- A process serves requests exactly if everything it needs at its start works. -/
theorem serves_exactly_if_works (env : Environment) (out : Outside) (w : World F) : (∃ w', configure env out w = .serving w') ↔ Works env out := by
  rcases configure_cases env out w with ⟨h1, h2⟩ | ⟨h1, h2⟩
  · exact ⟨fun ⟨_, h⟩ => (by rw [h2] at h; cases h), fun h => absurd h h1⟩
  · exact ⟨fun _ => h1, fun _ => ⟨_, h2⟩⟩

/-- Otherwise it answers no request. -/
theorem answers_nothing_otherwise (E : Env F D) (uuid : Str → Bool) (env : Environment) (out : Outside) (w : World F) (hw : ¬Works env out)
    (rs : List (HReq F D)) (r : HReq F D) : (((configure env out w).after E uuid rs).handle E uuid r).2 = none := by
  rcases configure_cases env out w with ⟨_, h2⟩ | ⟨h1, _⟩
  · rw [h2, after_exited]; rfl
  · exact absurd h1 hw

/-- The calls of a start are made in a fixed order and end with the first that fails; no pod is made if there is one. -/
theorem calls_in_order (env : Environment) (out : Outside) (w : World F) : (newHandler env out w).1 = upTo (fine out) (plan env out) :=
  newHandler_calls env out w

/-- A start changes nothing that is stored in the pod. -/
theorem start_keeps_pod (env : Environment) (out : Outside) (w w' : World F) (h : configure env out w = .serving w') :
    w'.dbs = w.dbs ∧ ∀ c, (w'.coll c).table = (w.coll c).table ∧ (w'.coll c).idx.kv = (w.coll c).idx.kv ∧
      (w'.coll c).idx.kvEntry = (w.coll c).idx.kvEntry ∧ (w'.coll c).idx.kvCount = (w.coll c).idx.kvCount := by
  rcases configure_cases env out w with ⟨_, h2⟩ | ⟨_, h2⟩
  · rw [h2] at h; cases h
  · rw [h2] at h; cases h
    exact ⟨rfl, fun c => ⟨rfl, rfl, rfl, rfl⟩⟩

/-- Whatever the process is asked, it stays logged in, its pod open, and its vectoriser the one it was started with. -/
theorem serving_is_logged_in (E : Env F D) (uuid : Str → Bool) (env : Environment) (out : Outside) (w w' : World F) (rs : List (HReq F D))
    (h : (configure env out w).after E uuid rs = .serving w') :
    w'.session = true ∧ w'.pod = true ∧ (w'.lookup = true ↔ env .vectorizerUrl ≠ []) := by
  obtain ⟨_, rfl⟩ := serving_of_after h
  obtain ⟨a, b, c⟩ := handleAll_logged E uuid rs { restart w with session := true, pod := true, lookup := decide (env .vectorizerUrl ≠ []) }
  rw [a, b, c]
  simp

/-- Without vectoriser every search for a text is answered with an error (and not with a panic). -/
theorem no_text_search_without_vectoriser (E : Env F D) (uuid : Str → Bool) (env : Environment) (out : Outside) (w w' : World F) (rs : List (HReq F D))
    (h : (configure env out w).after E uuid rs = .serving w') (hu : env .vectorizerUrl = []) (o : Oracle F D) (name text : Str) (max : D) (limit : Int) :
    ∃ why, (Rest.handle E uuid w' (.nearText o name text max limit)).2 = .bad why := by
  obtain ⟨_, hp, hl⟩ := serving_is_logged_in E uuid env out w w' rs h
  have hl : w'.lookup = false := by
    cases hx : w'.lookup with
    | false => rfl
    | true => exact absurd hu (hl.mp hx)
  simp only [Rest.handle]
  split
  · exact ⟨_, rfl⟩
  split
  · exact ⟨_, rfl⟩
  · simp only [serve, nearText_unvectorised E o w' hp hl, Ans.ofNear, nearResp, refusal]
    exact ⟨_, rfl⟩

/-- Without vectoriser no request succeeds that contains a document without vector but with a property to index. -/
theorem no_text_documents_without_vectoriser (E : Env F D) (uuid : Str → Bool) (env : Environment) (out : Outside) (w w' : World F) (rs : List (HReq F D))
    (h : (configure env out w).after E uuid rs = .serving w') (hu : env .vectorizerUrl = []) (o : Oracle F D) (name : Str) (ti : List Str)
    (docs : List (Option (RawDoc F))) (id : Str) (p : Props F) (hd : some ⟨id, some p⟩ ∈ docs) (hn : NoVector p) (k : Str) (hk : k ∈ ti) (hpk : p.get k ≠ none) (n : Nat) :
    (Rest.handle E uuid w' (.add o name (some ti) (some docs))).2 ≠ .added n := by
  obtain ⟨_, hp, hl⟩ := serving_is_logged_in E uuid env out w w' rs h
  have hl : w'.lookup = false := by
    cases hx : w'.lookup with
    | false => rfl
    | true => exact absurd hu (hl.mp hx)
  simp only [Rest.handle]
  split
  · simp
  split
  · simp
  split
  · simp
  · rename_i ds hds
    have hds := readDocs_eq hds
    have hm : some (⟨id, p⟩ : Doc F) ∈ ds := by
      rw [hds]; exact List.mem_map.mpr ⟨_, hd, rfl⟩
    obtain ⟨j, hj⟩ := List.getElem?_of_mem hm
    have hx := add_unvectorised E o w' hl name ti ds hj hn (fun ht => by
      have := textOf_empty ht k hk
      rw [Map.get_set] at this
      split at this
      · cases this
      · exact hpk this)
    simp only [serve]
    cases hy : (addDocuments E o w' name ti ds).2.2 with
    | none => exact absurd hy hx
    | some e =>
      simp only [Ans.ofErr, okResp]
      cases e <;> simp [refusal]

/-- In a process that serves, on a pod with any past, a request ends without answer only for the reasons of C70, and a missing pod is none
of them. -/
theorem serving_crashes_only_with_pod {E : Env F D} (hc : 0 < E.P.cacheSize) (uuid : Str → Bool) {w w' : World F} (hw : Past E uuid w) (env : Environment)
    (out : Outside) (rs : List (HReq F D)) (h : (configure env out w).after E uuid rs = .serving w') (r : HReq F D)
    (hp : (Rest.handle E uuid w' r).2 = .crash) : RestCause E w' r ∧ w'.pod = true :=
  ⟨handle_cause hc uuid ((Past.life env out rs hw h).sound hc) r hp, (serving_is_logged_in E uuid env out w w' rs h).2.1⟩

/-! ## cases -/

def name1 : Str := ['a', 'l', 'i', 'c', 'e']
def url : Str := ['h', 't', 't', 'p', ':', '/', '/', 'v']
/-- a user, a pod and a vectoriser -/
def env1 : Environment
  | .user => name1
  | .password => ['p']
  | .pod => ['p', 'o', 'd']
  | .vectorizerUrl => url
  | .verbose => ['T', 'r', 'u', 'e']
  | _ => []
/-- the same without vectoriser -/
def env0 : Environment := fun v => if v = .vectorizerUrl then [] else env1 v
/-- the pod is not there yet; all else works -/
def out1 : Outside
  | .podExists _ => false
  | _ => true
/-- nobody can log in -/
def out0 : Outside
  | .login _ _ => false
  | _ => true

/-- `configuration`: "True" is not one of the words -/
example : (setDefaults (fromEnv env1 Config.zero)).verbose = false ∧ (setDefaults (fromEnv env1 Config.zero)).beeApi = defaultBee ∧
    (setDefaults (fromEnv env1 Config.zero)).username = name1 := by decide

/-- `serves_exactly_if_works`, `calls_in_order`: the pod is made and opened; without login the start ends there -/
example : Works env1 out1 ∧ ¬Works env1 out0 ∧
    upTo (fine out1) (plan env1 out1) = [.dfs defaultBee defaultStamp [], .health url, .login name1 ['p'], .podExists ['p', 'o', 'd'],
      .createPod ['p', 'o', 'd'], .openPod ['p', 'o', 'd']] ∧
    upTo (fine out0) (plan env0 out0) = [.dfs defaultBee defaultStamp [], .login name1 ['p']] := by
  refine ⟨⟨rfl, .inr rfl, rfl, .inr rfl, rfl⟩, fun h => (by have := h.login; cases this), by decide, by decide⟩

open ExC in
/-- the requests of a first process: a collection is made and a document with text added -/
def first : List (HReq Nat Nat) :=
  [.create o books (some [some (title, tString)]), .add o books (some [title]) (some [some ⟨[], some [(title, .str ['x', 'y', 'z'])]⟩])]
/-- a process that has just started on the pod `w` -/
def started (w : World Nat) (v : Bool) : World Nat := { restart w with session := true, pod := true, lookup := v }
/-- the first process -/
def wA : World Nat := handleAll ExC.E (fun _ => true) (started (World.fresh false []) true) first

open ExC in
/-- a first process with vectoriser makes a collection and adds a document; a second without vectoriser finds it by vector but not by
text, and refuses a document with text only -/
example : (configure env1 out1 (World.fresh false [])).after E (fun _ => true) first = .serving wA ∧ Past E (fun _ => true) wA ∧
      configure env0 out1 wA = .serving (started wA false) ∧
      (match (Rest.handle E (fun _ => true) (started wA false) (.nearVector o books (some [4, 0]) 100 1)).2 with | .near _ l => l.length | _ => 0) = 1 ∧
      (Rest.handle E (fun _ => true) (started wA false) (.nearText o books ['x'] 100 1)).2 = .bad .failed ∧
      (Rest.handle E (fun _ => true) (started wA false) (.add o books (some [title]) (some [some ⟨[], some [(title, .str ['u'])]⟩]))).2 = .bad .failed := by
  have h : (configure env1 out1 (World.fresh false [])).after E (fun _ => true) first = .serving wA := by
    rw [show configure env1 out1 (World.fresh false []) = .serving (started (World.fresh false []) true) from rfl, after_serving]
    rfl
  exact ⟨h, .life env1 out1 first (.empty []) h, rfl, by decide +kernel, by decide +kernel, by decide +kernel⟩

end C71
end Fave
