import Verif.Spec.Start
import Verif.Lemmas.CrashRest
/-!
# Lemmas about the start
-/
namespace Fave.Start
open Client Rest
variable {F D : Type} [Dist D] [DecidableEq F]

theorem over_nil (v : Str) : over v [] = v := by unfold over; split <;> simp_all

/-- the configuration in closed form -/
theorem config_eq (env : Environment) : setDefaults (fromEnv env Config.zero) =
    ⟨enabled (env .verbose), orElse (env .beeApi) defaultBee, env .rpcApi, orElse (env .stampId) defaultStamp, env .vectorizerUrl, env .user,
      env .password, env .pod⟩ := by
  unfold setDefaults fromEnv Config.zero orElse
  simp only [over_nil]
  cases enabled (env .verbose) <;> simp only [Bool.false_eq_true, if_false, if_true] <;> split <;> split <;> rfl

theorem podCalls_ok (out : Outside) (pod : Str) :
    (podCalls out pod).2 = true ↔ (out (.podExists pod) = true ∨ out (.createPod pod) = true) ∧ out (.openPod pod) = true := by
  unfold podCalls
  split
  · rename_i h; simp [h]
  · rename_i h
    split
    · rename_i h'; simp [h']
    · rename_i h'; simp [h, h']

theorem newClient_ok (out : Outside) (url : Str) : (newClient out url).2 = true ↔ url = [] ∨ out (.health url) = true := by
  unfold newClient
  split <;> simp_all

theorem newHandler_some (env : Environment) (out : Outside) (w w' : World F) :
    (newHandler env out w).2 = some w' ↔ Works env out ∧
      w' = { restart w with session := true, pod := true, lookup := decide (env .vectorizerUrl ≠ []) } := by
  unfold newHandler
  simp only [config_eq]
  have hd : (Works env out ↔ out (.dfs (orElse (env .beeApi) defaultBee) (orElse (env .stampId) defaultStamp) (env .rpcApi)) = true ∧
      (newClient out (env .vectorizerUrl)).2 = true ∧ out (.login (env .user) (env .password)) = true ∧ (podCalls out (env .pod)).2 = true) := by
    rw [podCalls_ok, newClient_ok]
    exact ⟨fun h => ⟨h.dfs, h.health, h.login, h.pod, h.opens⟩, fun h => ⟨h.1, h.2.1, h.2.2.1, h.2.2.2.1, h.2.2.2.2⟩⟩
  rw [hd]
  cases h1 : out (.dfs (orElse (env .beeApi) defaultBee) (orElse (env .stampId) defaultStamp) (env .rpcApi)) with
  | false => simp
  | true =>
    cases h2 : (newClient out (env .vectorizerUrl)).2 with
    | false => simp
    | true =>
      cases h3 : out (.login (env .user) (env .password)) with
      | false => simp [login]
      | true =>
        cases h4 : (podCalls out (env .pod)).2 with
        | false => simp [login, openPod]
        | true =>
          simp only [login, openPod, if_true, Bool.not_true, Bool.false_eq_true, if_false, Option.some.injEq, true_and]
          exact ⟨fun h => h.symm, fun h => h.symm⟩

theorem newHandler_calls (env : Environment) (out : Outside) (w : World F) : (newHandler env out w).1 = upTo (fine out) (plan env out) := by
  unfold newHandler plan
  simp only [config_eq]
  rw [show List.replicate 64 '0' = defaultStamp from rfl]
  by_cases h1 : out (.dfs (orElse (env .beeApi) defaultBee) (orElse (env .stampId) defaultStamp) (env .rpcApi)) = true
  · by_cases hu : env .vectorizerUrl = [] <;> by_cases h2 : out (.health (env .vectorizerUrl)) = true <;>
    by_cases h3 : out (.login (env .user) (env .password)) = true <;> by_cases h4 : out (.podExists (env .pod)) = true <;>
    by_cases h5 : out (.createPod (env .pod)) = true <;> by_cases h6 : out (.openPod (env .pod)) = true <;>
    simp [newClient, login, openPod, podCalls, upTo, fine, h1, hu, h2, h3, h4, h5, h6]
  · simp [upTo, fine, h1]

theorem after_exited (E : Env F D) (uuid : Str → Bool) (rs : List (HReq F D)) : (Proc.exited : Proc F).after E uuid rs = .exited := by
  induction rs with
  | nil => rfl
  | cons r rs ih => exact ih

theorem after_serving (E : Env F D) (uuid : Str → Bool) (rs : List (HReq F D)) (w : World F) :
    (Proc.serving w).after E uuid rs = .serving (handleAll E uuid w rs) := by
  induction rs generalizing w with
  | nil => rfl
  | cons r rs ih => exact ih _

theorem configure_cases (env : Environment) (out : Outside) (w : World F) :
    (¬Works env out ∧ configure env out w = .exited) ∨
    (Works env out ∧ configure env out w = .serving { restart w with session := true, pod := true, lookup := decide (env .vectorizerUrl ≠ []) }) := by
  unfold configure
  cases h : (newHandler env out w).2 with
  | none =>
    left
    refine ⟨fun hw => ?_, rfl⟩
    rw [(newHandler_some env out w _).mpr ⟨hw, rfl⟩] at h
    cases h
  | some w' =>
    obtain ⟨h1, rfl⟩ := (newHandler_some env out w w').mp h
    exact .inr ⟨h1, rfl⟩

theorem serving_of_after {E : Env F D} {uuid : Str → Bool} {env : Environment} {out : Outside} {w w' : World F} {rs : List (HReq F D)}
    (h : (configure env out w).after E uuid rs = .serving w') :
    Works env out ∧ w' = handleAll E uuid { restart w with session := true, pod := true, lookup := decide (env .vectorizerUrl ≠ []) } rs := by
  rcases configure_cases env out w with ⟨_, h1⟩ | ⟨hw, h1⟩
  · rw [h1, after_exited] at h; cases h
  · rw [h1, after_serving] at h
    cases h
    exact ⟨hw, rfl⟩

theorem Past.sound {E : Env F D} (hc : 0 < E.P.cacheSize) {uuid : Str → Bool} {w : World F} (h : Past E uuid w) : SoundAll E w := by
  induction h with
  | empty dbs => exact soundAll_fresh E false dbs
  | life env out rs _ hs ih =>
    obtain ⟨_, rfl⟩ := serving_of_after hs
    refine soundAll_handleAll hc uuid rs ?_
    intro name
    exact (ih name).reopen

/-- a batch with a document that must be vectorised is not added without vectoriser -/
theorem addLoop_unvectorised (E : Env F D) (o : Oracle F D) (ti : List Str) (docs : List (Option (Doc F))) (i : Nat) (b : Batch F) {j : Nat} {d : Doc F}
    (hd : docs[j]? = some (some d)) (hn : NoVector d.props) (ht : textOf (d.props.set idName (.str d.id)) ti ≠ .ok []) :
    (addLoop E o false ti i docs b).2 ≠ none := by
  induction docs generalizing i b j with
  | nil => simp at hd
  | cons e docs ih =>
    unfold addLoop
    split
    · simp
    · rename_i b1 he
      cases j with
      | zero =>
        simp only [List.getElem?_cons_zero, Option.some.injEq] at hd
        subst hd
        have hget : (d.props.set idName (.str d.id)).get vectorName = d.props.get vectorName := by
          rw [Map.get_set, if_neg (Ne.symm idName_ne_vectorName)]
        have hx : (match textOf (d.props.set idName (.str d.id)) ti with
            | .error e => (b, some e)
            | .ok text =>
              if text = [] then storeDoc E o i b ((d.props.set idName (.str d.id)).set hnswName (.int (-1))) none
              else if !false then (b, some .error)
              else
                match o.corpi i text with
                | .fail => ({ b with log := b.log ++ [Res.noVector] }, none)
                | .nil => (b, some .panic)
                | .vec vec => indexDoc E o i b ((d.props.set idName (.str d.id)).set hnswName (.int b.next)) vec) = (b1, none) := by
          unfold addOne at he
          simp only [hget] at he
          rcases hn with hn | hn <;> rw [hn] at he <;> exact he
        cases htx : textOf (d.props.set idName (.str d.id)) ti with
        | error e => rw [htx] at hx; cases hx
        | ok text =>
          rw [htx] at hx ht
          cases text with
          | nil => exact absurd rfl ht
          | cons c t => simp at hx
      | succ j => exact ih (i + 1) b1 (by simpa using hd)

end Fave.Start

namespace Fave.Start
open Client Rest
variable {F D : Type} [Dist D] [DecidableEq F]

theorem textOf_empty {p : Props F} {ks : List Str} (h : textOf p ks = .ok []) : ∀ k ∈ ks, p.get k = none := by
  induction ks with
  | nil => intro k hk; cases hk
  | cons k ks ih =>
    unfold textOf at h
    split at h
    · rename_i hn
      intro k' hk'
      rcases List.mem_cons.mp hk' with rfl | hk'
      · exact hn
      · exact ih h k' hk'
    · split at h <;> simp at h
    · cases h

theorem ensureOpen_refuses (o : Oracle F D) (w : World F) (hp : w.pod = true) (name : Str) (e : Err) (h : (ensureOpen o w (ns ++ name)).2 = some e) : e = .error := by
  unfold ensureOpen at h
  rw [hp] at h
  simp only [Bool.not_true, Bool.false_eq_true, if_false] at h
  repeat' split at h
  all_goals first | cases h; rfl | cases h

theorem nearText_unvectorised (E : Env F D) (o : Oracle F D) (w : World F) (hp : w.pod = true) (hl : w.lookup = false) (name text : Str) (max : D) (limit : Int) :
    (nearText E o w name text max limit).2 = .error .error := by
  have h4 := (onlyAt_ensureOpen o w (ns ++ name)).lookup
  have h5 := ensureOpen_refuses o w hp name
  unfold nearText
  cases hop : ensureOpen o w (ns ++ name) with
  | mk w1 oe =>
    rw [hop] at h4 h5
    cases oe with
    | some e => rw [h5 e rfl]
    | none =>
      have h4 : w1.lookup = false := h4.trans hl
      simp [h4]

theorem add_unvectorised (E : Env F D) (o : Oracle F D) (w : World F) (hl : w.lookup = false) (name : Str) (ti : List Str) (docs : List (Option (Doc F))) {j : Nat} {d : Doc F}
    (hd : docs[j]? = some (some d)) (hn : NoVector d.props) (ht : textOf (d.props.set idName (.str d.id)) ti ≠ .ok []) :
    (addDocuments E o w name ti docs).2.2 ≠ none := by
  have h4 := (onlyAt_ensureOpen o w (ns ++ name)).lookup
  unfold addDocuments addBegin
  simp only
  cases hop : ensureOpen o w (ns ++ name) with
  | mk w1 oe =>
    rw [hop] at h4
    have hlk : w1.lookup = false := h4.trans hl
    cases oe with
    | some e => simp
    | none =>
      simp only
      cases hh : (w1.coll (ns ++ name)).hasIdx with
      | false => simp
      | true =>
        simp only [Bool.not_true, Bool.false_eq_true, if_false]
        have := addLoop_unvectorised E o ti docs 0 ⟨(w1.coll (ns ++ name)).idx, ((w1.dbs.get (ns ++ name)).getD ⟨[], []⟩).docs,
          if o.count then 0 else (w1.coll (ns ++ name)).idx.docCount.getD 0, []⟩ hd hn ht
        unfold addFinish
        simp only
        split
        · simp
        · rename_i hx; rw [hlk] at hx; exact absurd hx this

end Fave.Start
