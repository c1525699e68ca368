import Verif.Model.Fixer
import Verif.Lemmas.Combine
/-!
# The clean-up at start-up: lemmas
-/
namespace Fave
namespace Log

/-- a condensed log whose original is in the list -/
def Superseded (names : List (List Char)) (n : List Char) : Prop := ∃ m ∈ names, n = m ++ condensedSuffix

theorem hasSuffix_iff {s suf : List Char} : hasSuffix s suf = true ↔ ∃ m, s = m ++ suf := by
  unfold hasSuffix
  rw [List.isSuffixOf_iff_suffix]
  constructor
  · rintro ⟨m, h⟩; exact ⟨m, h.symm⟩
  · rintro ⟨m, h⟩; exact ⟨m, h.symm⟩

theorem trimSuffix_append (m suf : List Char) : trimSuffix (m ++ suf) suf = m := by
  unfold trimSuffix
  rw [if_pos (hasSuffix_iff.2 ⟨m, rfl⟩)]
  simp

theorem superseded_iff {names : List (List Char)} {n : List Char} :
    Superseded names n ↔ hasSuffix n condensedSuffix = true ∧ names.contains (trimSuffix n condensedSuffix) = true := by
  constructor
  · rintro ⟨m, hm, rfl⟩
    exact ⟨hasSuffix_iff.2 ⟨m, rfl⟩, by rw [trimSuffix_append]; simpa using hm⟩
  · rintro ⟨h1, h2⟩
    obtain ⟨m, rfl⟩ := hasSuffix_iff.1 h1
    rw [trimSuffix_append] at h2
    exact ⟨m, by simpa using h2, rfl⟩

instance (names : List (List Char)) (n : List Char) : Decidable (Superseded names n) := decidable_of_iff _ superseded_iff.symm

theorem fixLoop_keep {all : List (List Char)} {rm : List Char → Bool} {kept gone rest : List (List Char)} {n : List Char}
    (h : ¬ Superseded all n) : fixLoop all rm kept gone (n :: rest) = fixLoop all rm (kept ++ [n]) gone rest := by
  rw [superseded_iff] at h
  simp only [fixLoop]
  by_cases h1 : hasSuffix n condensedSuffix = true
  · by_cases h2 : all.contains (trimSuffix n condensedSuffix) = true
    · exact absurd ⟨h1, h2⟩ h
    · simp only [Bool.not_eq_true] at h2
      rw [h2, h1]; rfl
  · simp only [Bool.not_eq_true] at h1
    rw [h1]; rfl

theorem fixLoop_drop {all : List (List Char)} {rm : List Char → Bool} {kept gone rest : List (List Char)} {n : List Char}
    (h : Superseded all n) : fixLoop all rm kept gone (n :: rest) =
      if rm n then fixLoop all rm kept (gone ++ [n]) rest
      else ⟨kept ++ List.replicate (all.length - kept.length) [], gone, true⟩ := by
  rw [superseded_iff] at h
  simp only [fixLoop]
  rw [h.1, h.2]
  rfl

theorem fixLoop_ok {all : List (List Char)} {rm : List Char → Bool} {l : List (List Char)}
    (h : ∀ n ∈ l, Superseded all n → rm n = true) (kept gone : List (List Char)) :
    fixLoop all rm kept gone l =
      ⟨kept ++ l.filter (fun n => decide (¬ Superseded all n)), gone ++ l.filter (fun n => decide (Superseded all n)), false⟩ := by
  induction l generalizing kept gone with
  | nil => simp [fixLoop]
  | cons n l ih =>
    have ih' := ih fun m hm => h m (by simp [hm])
    by_cases hs : Superseded all n
    · rw [fixLoop_drop hs, if_pos (h n (by simp) hs), ih', List.filter_cons_of_neg (by simp [hs]),
        List.filter_cons_of_pos (by simpa using hs)]
      simp
    · rw [fixLoop_keep hs, ih', List.filter_cons_of_pos (by simpa using hs), List.filter_cons_of_neg (by simp [hs])]
      simp

theorem fixLoop_fail {all : List (List Char)} {rm : List Char → Bool} {done rest : List (List Char)} {x : List Char}
    (h : ∀ n ∈ done, Superseded all n → rm n = true) (hx : Superseded all x) (hr : rm x = false) (kept gone : List (List Char)) :
    ∃ out, fixLoop all rm kept gone (done ++ x :: rest) = ⟨out, gone ++ done.filter (fun n => decide (Superseded all n)), true⟩ := by
  induction done generalizing kept gone with
  | nil =>
    refine ⟨kept ++ List.replicate (all.length - kept.length) [], ?_⟩
    rw [List.nil_append, fixLoop_drop hx, hr]; simp
  | cons n l ih =>
    have ih' := ih fun m hm => h m (by simp [hm])
    rw [List.cons_append]
    by_cases hs : Superseded all n
    · obtain ⟨o, ho⟩ := ih' kept (gone ++ [n])
      refine ⟨o, ?_⟩
      rw [fixLoop_drop hs, if_pos (h n (by simp) hs), ho, List.filter_cons_of_pos (by simpa using hs)]
      simp
    · obtain ⟨o, ho⟩ := ih' (kept ++ [n]) gone
      refine ⟨o, ?_⟩
      rw [fixLoop_keep hs, ho, List.filter_cons_of_neg (by simp [hs])]

/-! ## names as text -/

theorem render_superseded {dir : List Char} {names : List FName} (hv : ∀ n ∈ names, n.visible = true) {n : FName}
    (hn : n ∈ names) :
    Superseded (names.map (FName.render dir)) (n.render dir) ↔ n.kind = .condensed ∧ n.base ∈ names := by
  have hdig : ∀ (k : Nat) (c : Char), c ∈ Nat.toDigits 10 k → c.isDigit = true := fun k c h =>
    Nat.isDigit_of_mem_toDigits (by decide) (by decide) h
  have hlast : ∀ (k : Nat) (m : List Char), dir ++ Nat.toDigits 10 k ≠ m ++ condensedSuffix := by
    intro k m h
    have h1 := congrArg List.getLast? h
    rw [List.getLast?_append, List.getLast?_append] at h1
    have h2 : condensedSuffix.getLast? = some 'd' := by decide
    rw [h2] at h1
    cases h3 : (Nat.toDigits 10 k).getLast? with
    | none =>
      rw [List.getLast?_eq_none_iff] at h3
      exact absurd h3 Nat.toDigits_ne_nil
    | some c =>
      rw [h3] at h1
      have hc : c = 'd' := by simpa using h1
      have := hdig k c (List.mem_of_getLast? h3)
      rw [hc] at this
      revert this; decide
  constructor
  · rintro ⟨m, hm, h⟩
    obtain ⟨x, hx, rfl⟩ := List.mem_map.1 hm
    have hk : n.kind = .condensed := by
      have h4 := hv n hn
      unfold FName.visible at h4
      cases hk : n.kind with
      | condensed => rfl
      | plain =>
        exfalso
        unfold FName.render at h
        rw [hk] at h
        refine hlast n.ts (dir ++ (Nat.toDigits 10 x.ts ++ x.kind.suffix)) ?_
        rw [← h]
        show _ = dir ++ (Nat.toDigits 10 n.ts ++ [])
        rw [List.append_nil]
      | combining => rw [hk] at h4; cases h4
      | scratch => rw [hk] at h4; cases h4
    refine ⟨hk, ?_⟩
    have h5 : dir ++ Nat.toDigits 10 n.ts = dir ++ (Nat.toDigits 10 x.ts ++ x.kind.suffix) := by
      unfold FName.render at h
      rw [hk, show Kind.suffix .condensed = condensedSuffix from rfl, ← List.append_assoc] at h
      exact List.append_cancel_right h
    have hxk : x.kind = .plain := by
      have h4 := hv x hx
      unfold FName.visible at h4
      cases hk' : x.kind with
      | plain => rfl
      | condensed =>
        exfalso
        rw [hk', ← List.append_assoc] at h5
        exact hlast n.ts _ h5
      | combining => rw [hk'] at h4; cases h4
      | scratch => rw [hk'] at h4; cases h4
    rw [hxk] at h5
    have h6 : Nat.toDigits 10 n.ts = Nat.toDigits 10 x.ts := by
      have := List.append_cancel_left h5
      simpa [Kind.suffix] using this
    have h7 : n.ts = x.ts := by
      have := congrArg (Nat.ofDigitChars 10 · 0) h6
      simpa [Nat.ofDigitChars_toDigits] using this
    have : n.base = x := by
      cases x; simp only [FName.base, FName.mk.injEq]; exact ⟨h7, hxk.symm⟩
    rw [this]; exact hx
  · rintro ⟨hk, hb⟩
    refine ⟨n.base.render dir, List.mem_map.2 ⟨_, hb, rfl⟩, ?_⟩
    unfold FName.render
    rw [hk]
    show dir ++ (Nat.toDigits 10 n.ts ++ condensedSuffix) = dir ++ (Nat.toDigits 10 n.ts ++ []) ++ condensedSuffix
    rw [List.append_nil, List.append_assoc]

end Log
end Fave

namespace Fave
namespace Log

/-! ## condensing one log -/

/-- the situation in which a log is condensed -/
structure Replaceable (d : Dir) (n : FName) (pre post : List FName) : Prop where
  clean : d.Clean
  split : d.listing = pre ++ n :: post
  plain : n.kind = .plain

namespace Replaceable
variable {d : Dir} {n : FName} {pre post : List FName}

theorem base_eq (h : Replaceable d n pre post) : n.base = n := by
  have := h.plain
  cases n; simp only at this; subst this; rfl

theorem cond_ne (h : Replaceable d n pre post) : n.cond ≠ n := by
  intro e; have := h.plain; rw [← e] at this; cases this

theorem cond_new (h : Replaceable d n pre post) : n.cond ∉ d.names := by
  intro hm
  have h1 : n.cond ∈ d.listing := mem_listing.2 ⟨hm, rfl⟩
  have h2 : n ∈ d.listing := by rw [h.split]; simp
  exact h.cond_ne (eq_of_ts h.clean.listing_nodup h1 h2 rfl)

theorem visible_put (h : Replaceable d n pre post) (c : Bytes) :
    (d.put n.cond c).names.filter FName.visible = d.names.filter FName.visible ++ [n.cond] := by
  rw [put_names_new h.cond_new, List.filter_append]; rfl

theorem nots (h : Replaceable d n pre post) : n ∉ pre ∧ n ∉ post := by
  have := nodup_of_ts h.clean.listing_nodup
  rw [h.split, List.nodup_append] at this
  obtain ⟨h1, h2, h3⟩ := this
  rw [List.nodup_cons] at h2
  exact ⟨fun hm => h3 n hm n (by simp) rfl, h2.1⟩

theorem perm_vis (h : Replaceable d n pre post) : (d.names.filter FName.visible).Perm (pre ++ n :: post) := by
  rw [← h.split]; exact (listing_perm d).symm

/-- while the original is there, clean-up removes exactly the new file -/
theorem fix_put (h : Replaceable d n pre post) (c : Bytes) : fix (d.put n.cond c).listing = d.listing := by
  have hp : (d.put n.cond c).listing.Perm (d.names.filter FName.visible ++ [n.cond]) := by
    rw [← h.visible_put c]; exact listing_perm _
  have hn : n ∈ d.names.filter FName.visible := h.perm_vis.mem_iff.2 (by simp)
  have hf : fix (d.put n.cond c).listing = (d.put n.cond c).listing.filter (fun m => m ≠ n.cond) := by
    unfold fix
    refine List.filter_congr fun m hm => ?_
    by_cases hmc : m = n.cond
    · subst hmc
      have : n.cond.base ∈ (d.put n.cond c).listing := by
        refine hp.mem_iff.2 ?_
        show n.base ∈ _
        rw [h.base_eq]; simp only [List.mem_append]; exact .inl hn
      simp [FName.cond]
      exact this
    · by_cases hk : m.kind = .condensed
      · have hm' : m ∈ d.names.filter FName.visible := by
          rcases List.mem_append.1 (hp.mem_iff.1 hm) with hx | hx
          · exact hx
          · simp only [List.mem_singleton] at hx; exact absurd hx hmc
        have : m.base ∉ (d.put n.cond c).listing := by
          intro hb
          rcases List.mem_append.1 (hp.mem_iff.1 hb) with hx | hx
          · have := eq_of_ts h.clean.ts hx hm' rfl
            rw [← this] at hk; cases hk
          · simp [FName.base, FName.cond] at hx
        simp [hk, hmc, this]
      · simp [hk, hmc]
  rw [hf]
  refine (eq_of_sorted (listing_sorted d) ((listing_sorted _).filter _) ?_ h.clean.listing_nodup).symm
  refine (listing_perm d).trans ?_
  have h2 := hp.filter (fun m => decide (m ≠ n.cond))
  rw [List.filter_append] at h2
  have e1 : [n.cond].filter (fun m => decide (m ≠ n.cond)) = [] := by simp
  have e2 : (d.names.filter FName.visible).filter (fun m => decide (m ≠ n.cond)) = d.names.filter FName.visible := by
    rw [List.filter_eq_self]
    intro m hm
    simp only [ne_eq, decide_eq_true_eq]
    intro e; subst e
    exact h.cond_new (List.mem_filter.1 hm).1
  rw [e1, e2, List.append_nil] at h2
  exact h2.symm

theorem map_done : (pre ++ n.cond :: post).map FName.ts = (pre ++ n :: post).map FName.ts := by simp [FName.cond]

theorem nodup_done (h : Replaceable d n pre post) : ((pre ++ n.cond :: post).map FName.ts).Nodup := by
  rw [map_done, ← h.split]; exact h.clean.listing_nodup

theorem perm_done (h : Replaceable d n pre post) (c : Bytes) :
    (((d.put n.cond c).erase n).names.filter FName.visible).Perm (pre ++ n.cond :: post) := by
  show (((d.put n.cond c).names.filter (fun m => m ≠ n)).filter FName.visible).Perm _
  rw [List.filter_filter]
  have h0 : (d.put n.cond c).names.filter (fun m => m.visible && decide (m ≠ n)) =
      ((d.put n.cond c).names.filter FName.visible).filter (fun m => decide (m ≠ n)) := by
    rw [List.filter_filter]
    exact List.filter_congr fun m _ => Bool.and_comm _ _
  rw [h0, h.visible_put, List.filter_append]
  have e1 : [n.cond].filter (fun m => decide (m ≠ n)) = [n.cond] := by simp [h.cond_ne]
  rw [e1]
  have h1 := h.perm_vis.filter (fun m => decide (m ≠ n))
  rw [filter_ne_split h.nots.1 h.nots.2] at h1
  refine (h1.append_right _).trans ?_
  rw [List.append_assoc]
  exact List.Perm.append_left pre (List.perm_append_comm (l₁ := post) (l₂ := [n.cond]))

theorem listing_done (h : Replaceable d n pre post) (c : Bytes) :
    ((d.put n.cond c).erase n).listing = pre ++ n.cond :: post := by
  refine listing_eq h.nodup_done (h.perm_done c).symm ?_
  rw [← List.pairwise_map (f := FName.ts) (R := (· ≤ ·)), map_done, List.pairwise_map, ← h.split]
  exact listing_sorted d

theorem clean_done (h : Replaceable d n pre post) (c : Bytes) : ((d.put n.cond c).erase n).Clean := by
  refine ⟨List.Nodup.sublist List.filter_sublist ?_, nodup_map_perm (h.perm_done c) h.nodup_done⟩
  rw [put_names_new h.cond_new, List.nodup_append]
  refine ⟨h.clean.nodup, by simp, fun x hx y hy e => ?_⟩
  simp only [List.mem_singleton] at hy
  subst hy; subst e; exact h.cond_new hx

theorem contents (h : Replaceable d n pre post) (c : Bytes) {l : List FName} (hl : ∀ m ∈ l, m ∈ pre ++ n :: post) :
    l.map (d.put n.cond c).content = l.map d.content := by
  refine List.map_congr_left fun m hm => ?_
  show (if m = n.cond then c else d.content m) = _
  rw [if_neg]
  intro e; subst e
  have := hl _ hm
  rw [← h.split] at this
  exact h.cond_new (mem_listing.1 this).1

theorem replayed_put (h : Replaceable d n pre post) (c : Bytes) : (d.put n.cond c).replayed = d.replayed := by
  unfold Dir.replayed
  rw [h.fix_put, fix_clean h.clean.listing_nodup, h.contents c (fun m hm => by rw [← h.split]; exact hm)]

theorem replayed_done (h : Replaceable d n pre post) (c : Bytes) : ((d.put n.cond c).erase n).replayed =
    (pre.map d.content).flatten ++ c ++ (post.map d.content).flatten := by
  have hc : ((d.put n.cond c).erase n).content = (d.put n.cond c).content := rfl
  have hb : (d.put n.cond c).content n.cond = c := by
    show (if n.cond = n.cond then c else _) = _
    rw [if_pos rfl]
  unfold Dir.replayed
  rw [h.listing_done, fix_clean h.nodup_done, hc, List.map_append, List.map_cons, hb,
    h.contents c (l := pre) (fun m hm => by simp [hm]), h.contents c (l := post) (fun m hm => by simp [hm])]
  simp

end Replaceable

end Log
end Fave
