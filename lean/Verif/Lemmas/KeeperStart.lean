import Verif.Lemmas.KeeperRun
import Verif.Spec.Keeper
/-!
# The commit log in use: crashes and restarts, and the whole run
-/
namespace Fave
namespace Log

/-- the directory after the clean-up at start-up -/
def Dir.fixed (d : Dir) : Dir :=
  ⟨d.sweep.names.filter (fun n => !(n.visible && !(fix d.sweep.listing).contains n)), d.sweep.content⟩

theorem start_eq (maxLen : Nat) (d : Dir) : d.start maxLen = repairFiles maxLen fresh (fix d.sweep.listing) d.fixed := rfl

theorem fixed_listing {d : Dir} (hn : d.names.Nodup) (hts : ((fix d.sweep.listing).map FName.ts).Nodup) :
    d.fixed.listing = fix d.sweep.listing ∧ d.fixed.Clean := by
  have hnd : d.fixed.names.Nodup := (hn.sublist List.filter_sublist).sublist List.filter_sublist
  have hsub : (fix d.sweep.listing).Sublist d.sweep.listing := List.filter_sublist
  have hperm : (fix d.sweep.listing).Perm (d.fixed.names.filter FName.visible) := by
    rw [List.perm_ext_iff_of_nodup (nodup_of_ts hts) (hnd.sublist List.filter_sublist)]
    intro n
    constructor
    · intro h
      obtain ⟨h1, h2⟩ := mem_listing.1 (hsub.subset h)
      refine List.mem_filter.2 ⟨List.mem_filter.2 ⟨h1, ?_⟩, h2⟩
      simp [h]
    · intro h
      obtain ⟨h1, h2⟩ := List.mem_filter.1 h
      have h3 := (List.mem_filter.1 h1).2
      simpa [h2] using h3
  refine ⟨listing_eq hts hperm ((listing_sorted _).sublist hsub), hnd, nodup_map_perm hperm.symm hts⟩

theorem put_nodup {d : Dir} (h : d.names.Nodup) (n : FName) (b : Bytes) : (d.put n b).names.Nodup := by
  unfold Dir.put
  by_cases hn : n ∈ d.names
  · simpa [hn] using h
  · simp only [hn, if_false]
    rw [List.nodup_append]
    refine ⟨h, by simp, fun x hx y hy e => ?_⟩
    simp only [List.mem_singleton] at hy
    subst hy; subst e; exact hn hx

variable {lev : Nat → Nat} {maxLen : Nat} {sure h : List LogOp} {k : Keeper} {es : List Entry} {last : List LogOp}

/-- stopped between the steps or while writing a condensed or combined log: the clean-up leads back to the logs as they were -/
theorem KInv.crash_disk (L : Limits) (hk : KInv lev L.maxLen sure h k es last) {c : Crash} (hc : (KEv.crash c).Fine) :
    (c.disk L k.dir).names.Nodup ∧ fix (c.disk L k.dir).sweep.listing = k.dir.listing ∧
    ∀ n ∈ k.dir.listing, (c.disk L k.dir).content n = k.dir.content n := by
  have hbase : ∀ d : Dir, d = k.dir ∨ d = k.dir.sweep → d.names.Nodup ∧ fix d.sweep.listing = k.dir.listing ∧
      ∀ n ∈ k.dir.listing, d.content n = k.dir.content n := by
    rintro d (rfl | rfl)
    · exact ⟨hk.clean.nodup, by rw [sweep_listing, fix_clean hk.clean.listing_nodup], fun _ _ => rfl⟩
    · exact ⟨hk.clean.nodup.sublist List.filter_sublist,
        by rw [sweep_listing, sweep_listing, fix_clean hk.clean.listing_nodup], fun _ _ => rfl⟩
  have hs := hk.sweep
  cases c with
  | idle => exact hbase _ (.inl rfl)
  | condensing m order =>
    unfold Crash.disk
    cases hcand : k.dir.sweep.candidate with
    | none => exact hbase _ (.inr rfl)
    | some n =>
      simp only
      cases hcon : Log.condense L.maxLen order (k.dir.sweep.content n) with
      | error e => exact hbase _ (.inr rfl)
      | ok c =>
        simp only
        obtain ⟨l1, e, l2, -, -, -, hR⟩ := hs.candidate hcand
        rw [condensedWith_new _ hR.cond_new]
        refine ⟨put_nodup hs.clean.nodup _ _, ?_, ?_⟩
        · rw [sweep_listing, hR.fix_put]; exact sweep_listing _
        · intro x hx
          rw [put_content, if_neg]
          · rfl
          · intro e'; subst e'
            rw [← sweep_listing] at hx
            exact hR.cond_new (mem_listing.1 hx).1
  | copying m =>
    unfold Crash.disk
    cases hmt : firstMatch (fun n => (k.dir.sweep.content n).length) L.threshold k.dir.sweep.listing with
    | none => exact hbase _ (.inr rfl)
    | some ab =>
      obtain ⟨a, b⟩ := ab
      simp only
      have hv : a.tmp.visible = false := rfl
      refine ⟨put_nodup hs.clean.nodup _ _, ?_, ?_⟩
      · have h1 : (k.dir.sweep.put a.tmp ((k.dir.sweep.merged a b).take m)).listing = k.dir.listing := by
          rw [← sweep_listing k.dir]
          unfold Dir.listing; rw [put_visible_tmp _ _ _ hv]
        rw [sweep_listing, h1, fix_clean hk.clean.listing_nodup]
      · intro x hx
        rw [put_content, if_neg]
        · rfl
        · intro e'; subst e'
          have := (mem_listing.1 hx).2
          rw [hv] at this; cases this
  | renamed => exact hc.elim
  | firstRemoved => exact hc.elim

/-- files that hold whole operations are read without changing them -/
theorem repairFiles_closed (maxLen : Nat) (st : LogState) (d : Dir) (es : List Entry) (rest : List FName)
    (hb : ∀ e ∈ es, d.content e.name = encodeAll e.ops) (hp : ∀ e ∈ es, ∀ op ∈ e.ops, Plain lev maxLen op) :
    ∃ st', repairFiles maxLen st (es.map Entry.name ++ rest) d = repairFiles maxLen st' rest d ∧
      st'.view = semAll st.view (es.flatMap Entry.ops) := by
  induction es generalizing st with
  | nil => exact ⟨st, rfl, rfl⟩
  | cons e es ih =>
    obtain ⟨s1, n, h1, h2, -⟩ := C25.replay_reproduces_partial maxLen st e.ops (fun o ho => (hp e (by simp) o ho).range)
      (fun o ho => (hp e (by simp) o ho).fits)
    obtain ⟨s2, h3, h4⟩ := ih s1 (fun x hx => hb x (by simp [hx])) (fun x hx => hp x (by simp [hx]))
    refine ⟨s2, ?_, ?_⟩
    · rw [← h3, List.map_cons, List.cons_append]
      simp only [repairFiles]
      rw [hb e (by simp), h1]
    · rw [h4, h2, List.flatMap_cons, semAll_append]

/-- closed logs do what was written to them -/
theorem sem_entries {es : List Entry} (hs : ∀ e ∈ es, Same lev maxLen e.ops e.seg)
    (ho : ∀ op ∈ es.flatMap Entry.seg, Plain lev maxLen op) {w : View} (hw : Lev lev w) :
    semAll w (es.flatMap Entry.ops) = semAll w (es.flatMap Entry.seg) := by
  induction es generalizing w with
  | nil => rfl
  | cons e es ih =>
    rw [List.flatMap_cons, List.flatMap_cons, semAll_append, semAll_append, (hs e (by simp)).sem w hw]
    exact ih (fun x hx => hs x (by simp [hx])) (fun op hop => ho op (by rw [List.flatMap_cons]; simp [hop]))
      (hw.semAll fun op hop => (ho op (by rw [List.flatMap_cons]; simp [hop])).adds)

theorem Plain.noPQ {op : LogOp} (h : Plain lev maxLen op) (d : PQData) : op ≠ .addPQ d := by
  intro e; subst e; exact h.adds.elim

theorem prefix_take {α : Type} {a b : List α} (h : a <+: b) : a = b.take a.length := by
  obtain ⟨t, rfl⟩ := h; simp

/-- the last file: it is cut to its complete operations -/
theorem repair_last (maxLen : Nat) (st : LogState) (d : Dir) (n : FName) (last : List LogOp) (hp : ∀ op ∈ last, Plain lev maxLen op)
    (hb : d.content n <+: encodeAll last) (hn : n ∈ d.names) :
    ∃ complete rest d' st', last = complete ++ rest ∧ repairFiles maxLen st [n] d = (d', st', none) ∧ d'.names = d.names ∧
      d'.content n = encodeAll complete ∧ (∀ m, m ≠ n → d'.content m = d.content m) ∧
      st'.view.node = (semAll st.view complete).node ∧ st'.view.tomb = (semAll st.view complete).tomb ∧
      (∀ op, rest.head? = some op → (d.content n).length < (encodeAll (complete ++ [op])).length) := by
  obtain ⟨c, rest, st', valid, err, h1, h2, h3, h4, h5, h6, h7, h8, -, h9⟩ := C26.torn_log_partial maxLen st last
    (fun o ho => (hp o ho).range) (fun o ho => (hp o ho).fits) (d.content n).length
  have hq : C25.NoPQ c := fun o ho => (hp o (by rw [h1]; exact List.mem_append_left _ ho)).noPQ
  rw [← prefix_take hb] at h2 h6
  have hcut : (d.content n).take valid = encodeAll c := by
    rw [h9 hq, prefix_take hb, List.take_take, h1]
    have h5 : (encodeAll c).length ≤ (d.content n).length := Nat.le_trans h4 (Nat.min_le_left _ _)
    rw [Nat.min_eq_left h5]
    simp [encodeAll]
  rcases h3 with rfl | he
  · refine ⟨c, rest, d, st', h1, ?_, rfl, h6.1 rfl, fun _ _ => rfl, h7, h8, h5⟩
    simp only [repairFiles]; rw [h2]
  · refine ⟨c, rest, d.put n (encodeAll c), st', h1, ?_, put_old_names _ hn, ?_, ?_, h7, h8, h5⟩
    · simp only [repairFiles]
      rcases he with rfl | rfl
      · rw [h2]; simp only [hcut]
      · rw [h2]; simp only [hcut]
    · rw [put_content, if_pos rfl]
    · intro m hm; rw [put_content, if_neg hm]

theorem encodeAll_prefix {a b : List LogOp} (h : a <+: b) : encodeAll a <+: encodeAll b := by
  obtain ⟨t, rfl⟩ := h; rw [encodeAll_append]; exact List.prefix_append _ _

theorem KInv.crash (L : Limits) (hk : KInv lev L.maxLen sure h k es last) {c : Crash} (hc : (KEv.crash c).Fine) :
    ∃ h' last' k' d st, k.step L (.crash c) = some k' ∧ sure <+: h' ∧ h' <+: h ∧ KInv lev L.maxLen h' h' k' es last' ∧
      k'.now = k.now ∧
      (c.disk L k.dir).start L.maxLen = (d, st, none) ∧
      st.view.node = (semAll View.empty h').node ∧ st.view.tomb = (semAll View.empty h').tomb := by
  obtain ⟨hn, hfix, hcont⟩ := hk.crash_disk L hc
  have hts : ((fix (c.disk L k.dir).sweep.listing).map FName.ts).Nodup := by rw [hfix]; exact hk.clean.listing_nodup
  obtain ⟨hlist, hclean⟩ := fixed_listing hn hts
  rw [hfix] at hlist
  have hent : ∀ e ∈ es, e.name ∈ k.dir.listing := fun e he => by
    rw [hk.listing]; exact List.mem_append_left _ (List.mem_map_of_mem he)
  have hcur : k.cur ∈ k.dir.listing := by rw [hk.listing]; simp
  obtain ⟨s1, h1, h2⟩ := repairFiles_closed (lev := lev) L.maxLen fresh (c.disk L k.dir).fixed es [k.cur]
    (fun e he => (hcont _ (hent e he)).trans (hk.bytes e he)) (fun e he => (hk.same e he).ok)
  have hpl : ∀ op ∈ last, Plain lev L.maxLen op := fun op hop => hk.ok op (by rw [hk.hist]; exact List.mem_append_right _ hop)
  have hps : ∀ op ∈ es.flatMap Entry.seg, Plain lev L.maxLen op := fun op hop =>
    hk.ok op (by rw [hk.hist]; exact List.mem_append_left _ hop)
  have hcc : (c.disk L k.dir).fixed.content k.cur = k.dir.content k.cur := hcont _ hcur
  obtain ⟨comp, rest, d', st, g1, g2, g3, g4, g5, g6, g7, g8⟩ := repair_last L.maxLen s1 (c.disk L k.dir).fixed k.cur last hpl
    (by rw [hcc, ← hk.cur]; exact List.prefix_append _ _) (mem_listing.1 (by rw [hlist]; exact hcur)).1
  rw [hcc] at g8
  have hstart : (c.disk L k.dir).start L.maxLen = (d', st, none) := by
    rw [start_eq, hfix, hk.listing, h1, g2]
  have hl' : d'.listing = es.map Entry.name ++ [k.cur] := by rw [listing_of_names g3, hlist, hk.listing]
  have hcl' : d'.Clean := clean_of_names g3 hclean
  have hopen : d'.openLatest k.now = some ⟨d'.sweep, k.cur, [], k.now⟩ := by
    unfold Dir.openLatest
    have hne : d'.names ≠ [] := by
      intro e
      have : k.cur ∈ d'.names := (mem_listing.1 (by rw [hl']; simp)).1
      rw [e] at this; cases this
    rw [if_neg hne, sweep_listing, hl', List.getLast?_concat]
  have hview : semAll s1.view comp = semAll View.empty (es.flatMap Entry.seg ++ comp) := by
    rw [h2, fresh_view, sem_entries hk.same hps (Lev.empty lev), semAll_append]
  obtain ⟨d, d1, d2, d3⟩ := hk.sure
  have hcp : comp <+: last := by rw [g1]; exact List.prefix_append _ _
  have hdc : d <+: comp := by
    rcases List.prefix_or_prefix_of_prefix d1 hcp with hx | hx
    · exact hx
    · obtain ⟨t, rfl⟩ := hx
      cases t with
      | nil => simp
      | cons op t =>
        exfalso
        obtain ⟨t2, ht2⟩ := d1
        have hr : rest = op :: (t ++ t2) := by
          rw [g1] at ht2
          have : comp ++ (op :: (t ++ t2)) = comp ++ rest := by rw [← ht2]; simp
          exact (List.append_cancel_left this).symm
        have h10 := g8 op (by rw [hr]; rfl)
        have h11 : (encodeAll (comp ++ [op])).length ≤ (encodeAll (comp ++ op :: t)).length :=
          (encodeAll_prefix ⟨t, by simp⟩).length_le
        have h12 := d2.length_le
        omega
  refine ⟨es.flatMap Entry.seg ++ comp, comp, ⟨d'.sweep, k.cur, [], k.now⟩, d', st, ?_, ?_, ?_, ?_, rfl, hstart, ?_, ?_⟩
  · simp only [Keeper.step]
    rw [hstart]; exact hopen
  · exact d3.trans ((List.prefix_append_right_inj _).2 hdc)
  · rw [hk.hist]; exact (List.prefix_append_right_inj _).2 hcp
  · refine ⟨sweep_clean hcl', (sweep_listing _).trans hl', hk.plain, hk.time, ?_, hk.same, ?_, rfl, ?_, comp, List.prefix_refl _, ?_,
      List.prefix_refl _⟩
    · intro e he
      show d'.content e.name = _
      rw [g5 _ (hk.names_ne he)]
      exact (hcont _ (hent e he)).trans (hk.bytes e he)
    · show d'.content k.cur ++ [] = _
      rw [List.append_nil]; exact g4
    · intro op hop
      rcases List.mem_append.1 hop with hop | hop
      · exact hps op hop
      · exact hpl op (hcp.subset hop)
    · show _ <+: d'.content k.cur
      rw [g4]; exact List.prefix_refl _
  · rw [g6, hview]
  · rw [g7, hview]

/-! ## the whole run -/

theorem KInv.clock (hk : KInv lev maxLen sure h k es last) {t : Nat} (ht : k.now ≤ t) :
    KInv lev maxLen sure h ⟨k.dir, k.cur, k.buf, t⟩ es last :=
  ⟨hk.clean, hk.listing, hk.plain, Nat.le_trans hk.time ht, hk.bytes, hk.same, hk.cur, hk.hist, hk.ok, hk.sure⟩

theorem switch_now (L : Limits) (k : Keeper) (f : Bool) : (k.switch L f).now = k.now := by
  unfold Keeper.switch; split <;> rfl

theorem KInv.new (lev : Nat → Nat) (maxLen t : Nat) : KInv lev maxLen [] [] (Keeper.new t) [] [] := by
  refine ⟨⟨?_, ?_⟩, rfl, rfl, Nat.le_refl _, by simp, by simp, ?_, rfl, by simp, [], List.prefix_refl _, List.nil_prefix, List.nil_prefix⟩
  · simp [Keeper.new, Dir.touch, Dir.put]
  · simp [Keeper.new, Dir.touch, Dir.put, FName.visible]
  · simp [Keeper.new, Dir.touch, Dir.put, encodeAll]

/-- a run that starts well goes well -/
theorem KInv.run (L : Limits) (hm : 56250 ≤ L.maxLen) (evs : List KEv) :
    ∀ {sure h : List LogOp} {k : Keeper} {es : List Entry} {last : List LogOp}, KInv lev L.maxLen sure h k es last →
      Steady k.now evs → (∀ op ∈ written evs, Plain lev L.maxLen op) → (∀ e ∈ evs, e.Fine) →
      (∀ p, p <+: h → ∀ i l, linkLens p i l ≤ 65535) →
      (∀ p, p <+: evs → ∀ f, Survives sure h p f → ∀ i l, linkLens f i l ≤ 65535) →
      ∃ sure' f k' es' last', k.run L evs = some k' ∧
        (∀ rest g, Survives sure' f rest g → Survives sure h (evs ++ rest) g) ∧ KInv lev L.maxLen sure' f k' es' last' := by
  induction evs with
  | nil => intro sure h k es last hk _ _ _ _ _; exact ⟨sure, h, k, es, last, rfl, fun _ _ hg => hg, hk⟩
  | cons e evs ih =>
    intro sure h k es last hk hst hw hfi hb' hl
    have hfi' : ∀ e ∈ evs, e.Fine := fun x hx => hfi x (by simp [hx])
    have hgo : ∀ {sure' h' : List LogOp} {k' : Keeper} {es' : List Entry} {last' : List LogOp}, k.step L e = some k' →
        KInv lev L.maxLen sure' h' k' es' last' → Steady k'.now evs → (∀ op ∈ written evs, Plain lev L.maxLen op) →
        (∀ p, p <+: h' → ∀ i l, linkLens p i l ≤ 65535) → (∀ p f, Survives sure' h' p f → Survives sure h (e :: p) f) →
        ∃ sure' f k' es' last', k.run L (e :: evs) = some k' ∧
          (∀ rest g, Survives sure' f rest g → Survives sure h (e :: evs ++ rest) g) ∧ KInv lev L.maxLen sure' f k' es' last' := by
      intro sure' h' k' es' last' hstep hk' hst' hw' hb2 hsv
      obtain ⟨s2, f, k2, es2, last2, r1, r2, r3⟩ := ih hk' hst' hw' hfi' hb2 fun p hp f hf =>
        hl (e :: p) (by simpa using hp) f (hsv p f hf)
      exact ⟨s2, f, k2, es2, last2, by simp only [Keeper.run]; rw [hstep]; exact r1, fun rest g hg => hsv _ g (r2 rest g hg), r3⟩
    cases e with
    | write op =>
      refine hgo rfl (hk.write (hw op (by simp [written]))) hst (fun o ho => hw o (by simp [written, ho])) (fun p hp => ?_)
        fun _ _ hf => hf
      rcases List.prefix_concat_iff.1 hp with rfl | hp
      · exact hl [.write op] ⟨evs, rfl⟩ _ rfl
      · exact hb' p hp
    | spill n => exact hgo rfl (hk.spill n) hst hw hb' fun _ _ hf => hf
    | flush => exact hgo rfl hk.flush hst hw hb' fun _ _ hf => hf
    | clock t => exact hgo rfl (hk.clock hst.1) hst.2 hw hb' fun _ _ hf => hf
    | switch f =>
      obtain ⟨es', last', hk'⟩ := hk.switch L f
      exact hgo rfl hk' (by rw [switch_now]; exact hst) hw hb' fun _ _ hf => hf
    | condense order =>
      obtain ⟨es', hk'⟩ := hk.condense hm hb' (hfi (.condense order) (by simp))
      exact hgo rfl hk' hst hw hb' fun _ _ hf => hf
    | combine =>
      obtain ⟨es', hk'⟩ := hk.combine L.threshold
      exact hgo rfl hk' hst hw hb' fun _ _ hf => hf
    | crash c =>
      obtain ⟨h', last', k', d, st, c1, c2, c3, c4, c5, -⟩ := hk.crash L (hfi (.crash c) (by simp))
      exact hgo c1 c4 (by rw [c5]; exact hst) hw (fun p hp => hb' p (hp.trans c3)) fun p f hf => ⟨h', c2, c3, hf⟩

/-! ## counting links -/

theorem lensAt_le (i l x : Nat) (ops : List LogOp) : lensAt i l x ops ≤ x + (ops.map LogOp.links).sum := by
  induction ops generalizing x with
  | nil => exact Nat.le_refl _
  | cons op ops ih =>
    have h1 := ih (op.lensAt i l x)
    have h2 : op.lensAt i l x ≤ x + op.links := by
      cases op <;> simp only [LogOp.lensAt, LogOp.links] <;> (try split) <;> omega
    rw [lensAt_cons, List.map_cons, List.sum_cons]
    omega

theorem sum_sublist {a b : List LogOp} (h : a.Sublist b) : (a.map LogOp.links).sum ≤ (b.map LogOp.links).sum := by
  induction h with
  | slnil => exact Nat.le_refl _
  | cons x _ ih => rw [List.map_cons, List.sum_cons]; omega
  | cons_cons x _ ih => rw [List.map_cons, List.sum_cons, List.map_cons, List.sum_cons]; omega

theorem written_append (a b : List KEv) : written (a ++ b) = written a ++ written b := by
  induction a with
  | nil => rfl
  | cons e a ih => cases e <;> simp [written, ih]

theorem survives_sublist {es : List KEv} : ∀ {sure h f : List LogOp}, Survives sure h es f → f.Sublist (h ++ written es) := by
  induction es with
  | nil => intro sure h f hf; subst hf; simp [written]
  | cons e es ih =>
    intro sure h f hf
    cases e with
    | write op => have := ih hf; simpa [written] using this
    | crash c =>
      obtain ⟨h', -, h2, h3⟩ := hf
      exact (ih h3).trans (h2.sublist.append_right _)
    | spill _ => exact ih hf
    | flush => exact ih hf
    | clock _ => exact ih hf
    | switch _ => exact ih hf
    | condense _ => exact ih hf
    | combine => exact ih hf

/-- a sufficient condition for the bound on links below: not more than 65535 links are written altogether -/
theorem few_links {es : List KEv} (h : ((written es).map LogOp.links).sum ≤ 65535) :
    ∀ p, p <+: es → ∀ f, Survives [] [] p f → ∀ i l, linkLens f i l ≤ 65535 := by
  intro p hp f hf i l
  obtain ⟨q, rfl⟩ := hp
  rw [written_append, List.map_append, List.sum_append] at h
  have h1 := sum_sublist (survives_sublist hf)
  have h2 := lensAt_le i l 0 f
  rw [linkLens_eq]
  simp only [List.nil_append] at h1
  omega

end Log
end Fave
