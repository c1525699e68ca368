import Verif.Lemmas.KeeperStart
import Verif.Spec.Backup
import Verif.Props.C29
/-!
# Backups: the files listed, and what they hold
-/
namespace Fave
namespace Log

/-! ## no unfinished combined logs are left while the commit log is in use -/

/-- no unfinished combined log -/
def NoTmp (d : Dir) : Prop := ∀ n ∈ d.names, n.kind ≠ .combining

theorem NoTmp.put {d : Dir} (h : NoTmp d) {n : FName} (hn : n.kind ≠ .combining) (b : Bytes) : NoTmp (d.put n b) := by
  intro m hm
  unfold Dir.put at hm
  by_cases hx : n ∈ d.names
  · simp only [hx, if_true] at hm; exact h m hm
  · simp only [hx, if_false] at hm
    rcases List.mem_append.1 hm with hm | hm
    · exact h m hm
    · simp only [List.mem_singleton] at hm; subst hm; exact hn

theorem NoTmp.erase {d : Dir} (h : NoTmp d) (n : FName) : NoTmp (d.erase n) := fun m hm => h m (List.mem_filter.1 hm).1

theorem noTmp_sweep (d : Dir) : NoTmp d.sweep := fun m hm => by
  have := (List.mem_filter.1 hm).2
  simpa using this

theorem NoTmp.push {k : Keeper} (h : NoTmp k.dir) (b : Bytes) : NoTmp (k.push b) := by
  unfold Keeper.push
  by_cases hc : k.cur ∈ k.dir.names
  · rw [if_pos hc]; exact h.put (h _ hc) _
  · rw [if_neg hc]; exact h

theorem NoTmp.touch {d : Dir} (h : NoTmp d) {n : FName} (hn : n.kind ≠ .combining) : NoTmp (d.touch n) := by
  unfold Dir.touch
  split
  · exact h
  · exact h.put hn _

theorem noTmp_openLatest {d : Dir} {t : Nat} {k : Keeper} (h : d.openLatest t = some k) : NoTmp k.dir := by
  unfold Dir.openLatest at h
  by_cases hd : d.names = []
  · rw [if_pos hd] at h
    cases h
    refine NoTmp.touch (fun n hn => ?_) (fun h => by cases h)
    rw [hd] at hn; cases hn
  · rw [if_neg hd] at h
    split at h
    · cases h
    · cases h; exact noTmp_sweep d

theorem NoTmp.switch {k : Keeper} (h : NoTmp k.dir) (L : Limits) (f : Bool) : NoTmp (k.switch L f).dir := by
  unfold Keeper.switch
  split
  · exact h
  · exact NoTmp.touch (h.push _) (fun h => by cases h)

theorem NoTmp.step {L : Limits} {k k' : Keeper} (h : NoTmp k.dir) {e : KEv} (hs : k.step L e = some k') : NoTmp k'.dir := by
  cases e with
  | write op => cases hs; exact h
  | spill n => cases hs; exact h.push _
  | flush => cases hs; exact h.push _
  | clock t => cases hs; exact h
  | switch f => cases hs; exact h.switch L f
  | condense order =>
    cases hs
    show NoTmp (k.dir.condenseOne L.maxLen order)
    have h0 := noTmp_sweep k.dir
    unfold Dir.condenseOne
    split
    · exact h0
    · split
      · exact h0
      · exact (h0.put (fun h => by cases h) _).erase _
  | combine =>
    cases hs
    show NoTmp (k.dir.combineOne L.threshold)
    have h0 := noTmp_sweep k.dir
    unfold Dir.combineOne
    split
    · exact h0
    · exact (((h0.erase _).put (fun h => by cases h) _).erase _).erase _
  | crash c =>
    simp only [Keeper.step] at hs
    split at hs
    · cases hs
    · exact noTmp_openLatest hs

theorem NoTmp.run {L : Limits} {es : List KEv} : ∀ {k k' : Keeper}, NoTmp k.dir → k.run L es = some k' → NoTmp k'.dir := by
  induction es with
  | nil => intro k k' h hr; cases hr; exact h
  | cons e es ih =>
    intro k k' h hr
    simp only [Keeper.run] at hr
    split at hr
    · cases hr
    · rename_i hs; exact ih (h.step hs) hr

theorem noTmp_new (t : Nat) : NoTmp (Keeper.new t).dir := NoTmp.touch (fun n hn => by cases hn) (fun h => by cases h)

/-! ## writing while background work is paused -/

theorem push_other {k : Keeper} (b : Bytes) {n : FName} (hn : n ≠ k.cur) : (k.push b).content n = k.dir.content n := by
  unfold Keeper.push
  split
  · rw [put_content, if_neg hn]
  · rfl

theorem push_names (k : Keeper) (b : Bytes) : (k.push b).names = k.dir.names := by
  unfold Keeper.push
  split
  · rename_i h; exact put_old_names _ h
  · rfl

theorem quiet_run {L : Limits} {es : List KEv} (hq : ∀ e ∈ es, e.Quiet) : ∀ k : Keeper, ∃ k', k.run L es = some k' ∧ k'.cur = k.cur ∧
    k'.dir.names = k.dir.names ∧ ∀ n, n ≠ k.cur → k'.dir.content n = k.dir.content n := by
  induction es with
  | nil => intro k; exact ⟨k, rfl, rfl, rfl, fun _ _ => rfl⟩
  | cons e es ih =>
    intro k
    have key : ∀ k1 : Keeper, k.step L e = some k1 → k1.cur = k.cur → k1.dir.names = k.dir.names →
        (∀ n, n ≠ k.cur → k1.dir.content n = k.dir.content n) → ∃ k', k.run L (e :: es) = some k' ∧ k'.cur = k.cur ∧
          k'.dir.names = k.dir.names ∧ ∀ n, n ≠ k.cur → k'.dir.content n = k.dir.content n := by
      intro k1 h1 h2 h3 h4
      obtain ⟨k', r1, r2, r3, r4⟩ := ih (fun x hx => hq x (by simp [hx])) k1
      refine ⟨k', by simp only [Keeper.run]; rw [h1]; exact r1, r2.trans h2, r3.trans h3, fun n hn => ?_⟩
      rw [r4 n (by rw [h2]; exact hn), h4 n hn]
    have he := hq e (by simp)
    cases e with
    | write op => exact key _ rfl rfl rfl fun _ _ => rfl
    | spill n => exact key _ rfl rfl (push_names _ _) fun _ hn => push_other _ hn
    | flush => exact key _ rfl rfl (push_names _ _) fun _ hn => push_other _ hn
    | clock t => exact key _ rfl rfl rfl fun _ _ => rfl
    | _ => exact he.elim

/-! ## the files listed -/

variable {lev : Nat → Nat} {maxLen : Nat} {sure h : List LogOp} {k : Keeper} {es : List Entry} {last : List LogOp}

theorem KInv.listFiles (hk : KInv lev maxLen sure h k es last) :
    k.dir.listFiles = some ((k.dir.names.filter (fun n => k.dir.content n ≠ [])).filter (fun n => n ≠ k.cur), k.dir.sweep) := by
  unfold Dir.listFiles
  have hne : k.dir.names ≠ [] := by
    intro e
    have := hk.cur_mem
    rw [e] at this; cases this
  rw [if_neg hne, sweep_listing, hk.listing, List.getLast?_concat]

theorem encodeAll_nil {ops : List LogOp} (h : encodeAll ops = []) : ops = [] := by
  cases ops with
  | nil => rfl
  | cons op ops => rw [encodeAll_cons] at h; simp at h

theorem flatMap_nonempty (es : List Entry) :
    ((es.filter fun e => encodeAll e.ops ≠ []).map Entry.ops).flatten = es.flatMap Entry.ops := by
  induction es with
  | nil => rfl
  | cons e es ih =>
    by_cases he : encodeAll e.ops = []
    · have h1 := encodeAll_nil he
      rw [List.filter_cons_of_neg (by simp [he]), ih, List.flatMap_cons, h1, List.nil_append]
    · rw [List.filter_cons_of_pos (by simp [he]), List.map_cons, List.flatten_cons, ih, List.flatMap_cons]

/-- the closed files alone hold the history if the current file holds nothing -/
theorem KInv.backup (hk : KInv lev maxLen sure h k es []) {d : Dir} (hd : ∀ n, n ≠ k.cur → d.content n = k.dir.content n)
    {files : List FName}
    (hf : files.Perm ((k.dir.names.filter (fun n => k.dir.content n ≠ [])).filter (fun n => n ≠ k.cur))) :
    ∃ s, (d.only files).restore maxLen = (s, none) ∧ s.view = semAll View.empty h := by
  have hsub : ((es.filter fun e => encodeAll e.ops ≠ []).map Entry.name).Sublist k.dir.listing := by
    rw [hk.listing]
    exact (List.filter_sublist.map _).trans (List.sublist_append_left _ _)
  have hts : (((es.filter fun e => encodeAll e.ops ≠ []).map Entry.name).map FName.ts).Nodup :=
    hk.clean.listing_nodup.sublist (hsub.map _)
  have hperm : ((es.filter fun e => encodeAll e.ops ≠ []).map Entry.name).Perm ((d.only files).names.filter FName.visible) := by
    refine List.Perm.trans ?_ (hf.filter FName.visible).symm
    rw [List.perm_ext_iff_of_nodup (nodup_of_ts hts)
      (((hk.clean.nodup.sublist List.filter_sublist).sublist List.filter_sublist).sublist List.filter_sublist)]
    intro n
    simp only [List.mem_filter, List.mem_map, decide_eq_true_eq]
    constructor
    · rintro ⟨e, ⟨he, hne⟩, rfl⟩
      have hl : e.name ∈ k.dir.listing := by rw [hk.listing]; exact List.mem_append_left _ (List.mem_map_of_mem he)
      obtain ⟨h1, h2⟩ := mem_listing.1 hl
      exact ⟨⟨⟨h1, by rw [hk.bytes e he]; exact hne⟩, hk.names_ne he⟩, h2⟩
    · rintro ⟨⟨⟨h1, h2⟩, h3⟩, h4⟩
      have hl : n ∈ k.dir.listing := mem_listing.2 ⟨h1, h4⟩
      rw [hk.listing] at hl
      rcases List.mem_append.1 hl with hl | hl
      · obtain ⟨e, he, rfl⟩ := List.mem_map.1 hl
        exact ⟨e, ⟨he, by rw [← hk.bytes e he]; exact h2⟩, rfl⟩
      · simp only [List.mem_singleton] at hl; exact absurd hl h3
  have hlist : (d.only files).listing = (es.filter fun e => encodeAll e.ops ≠ []).map Entry.name :=
    listing_eq hts hperm ((listing_sorted k.dir).sublist hsub)
  have hfiles : (fix (d.only files).listing).map (d.only files).content =
      ((es.filter fun e => encodeAll e.ops ≠ []).map Entry.ops).map encodeAll := by
    rw [hlist, fix_clean hts, List.map_map, List.map_map]
    refine List.map_congr_left fun e he => ?_
    have he' := (List.mem_filter.1 he).1
    exact (hd _ (hk.names_ne he')).trans (hk.bytes e he')
  have hall : ∀ o ∈ (es.filter fun e => encodeAll e.ops ≠ []).map Entry.ops, ∀ op ∈ o, Plain lev maxLen op := by
    intro o ho op hop
    obtain ⟨e, he, rfl⟩ := List.mem_map.1 ho
    exact (hk.same e (List.mem_filter.1 he).1).ok op hop
  obtain ⟨s, h4, h5⟩ := C29.restoreFiles_holds (maxLen := maxLen) fresh hfiles
    (fun o ho op hop => (hall o ho op hop).range) (fun o ho op hop => (hall o ho op hop).fits)
  refine ⟨s, h4, ?_⟩
  have hss : ∀ op ∈ es.flatMap Entry.seg, Plain lev maxLen op := fun op hop =>
    hk.ok op (by rw [hk.hist]; exact List.mem_append_left _ hop)
  rw [h5, fresh_view, flatMap_nonempty, sem_entries hk.same hss (Lev.empty lev), hk.hist, List.append_nil]

/-- a forced switch in a later second leaves nothing in the current file -/
theorem KInv.switched (L : Limits) (hk : KInv lev maxLen sure h k es last) (ht : k.cur.ts < k.now) :
    ∃ es', KInv lev maxLen h h (k.switch L true) es' [] := by
  obtain ⟨es', last', hk'⟩ := hk.switch L true
  have hlast : last' = [] := by
    apply encodeAll_nil
    rw [← hk'.cur]
    have hnew : (⟨k.now, .plain⟩ : FName) ∉ k.flush.dir.names := by
      intro hm
      have hf := hk.flush
      have h1 : (⟨k.now, .plain⟩ : FName) ∈ k.flush.dir.listing := mem_listing.2 ⟨hm, rfl⟩
      have h2 := listing_sorted k.flush.dir
      rw [hf.listing] at h1 h2
      rw [List.pairwise_append] at h2
      rcases List.mem_append.1 h1 with h1 | h1
      · have := h2.2.2 _ h1 k.cur (by simp [show k.flush.cur = k.cur from rfl])
        simp only at this; omega
      · simp only [List.mem_singleton] at h1
        have h3 : k.now = k.cur.ts := congrArg FName.ts h1
        omega
    have hsw : k.switch L true = ⟨k.flush.dir.put ⟨k.now, .plain⟩ [], ⟨k.now, .plain⟩, [], k.now⟩ := by
      unfold Keeper.switch Dir.touch
      rw [if_neg (by simp), if_neg hnew]
    rw [hsw]
    show (k.flush.dir.put ⟨k.now, .plain⟩ []).content ⟨k.now, .plain⟩ ++ [] = []
    rw [put_content, if_pos rfl]; rfl
  subst hlast
  exact ⟨es', hk'⟩

end Log
end Fave
