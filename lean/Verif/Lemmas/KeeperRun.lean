import Verif.Lemmas.KeeperOps
import Verif.Lemmas.Combine
import Verif.Lemmas.Fixer
import Verif.Props.C26
/-!
# The commit log in use: the invariant
-/
namespace Fave
namespace Log

/-- a file that is not written to any more: its name, the operations that were written to it, and the operations it holds now -/
structure Entry where
  name : FName
  seg : List LogOp
  ops : List LogOp

structure KInv (lev : Nat → Nat) (maxLen : Nat) (sure h : List LogOp) (k : Keeper) (es : List Entry) (last : List LogOp) : Prop where
  clean : k.dir.Clean
  listing : k.dir.listing = es.map Entry.name ++ [k.cur]
  plain : k.cur.kind = .plain
  time : k.cur.ts ≤ k.now
  bytes : ∀ e ∈ es, k.dir.content e.name = encodeAll e.ops
  same : ∀ e ∈ es, Same lev maxLen e.ops e.seg
  cur : k.dir.content k.cur ++ k.buf = encodeAll last
  hist : h = es.flatMap Entry.seg ++ last
  ok : ∀ op ∈ h, Plain lev maxLen op
  sure : ∃ d, d <+: last ∧ encodeAll d <+: k.dir.content k.cur ∧ sure <+: es.flatMap Entry.seg ++ d

/-! ## small facts about directories -/

theorem put_old_names {d : Dir} {n : FName} (b : Bytes) (h : n ∈ d.names) : (d.put n b).names = d.names := by simp [Dir.put, h]

theorem put_content (d : Dir) (n : FName) (b : Bytes) (m : FName) : (d.put n b).content m = if m = n then b else d.content m := rfl

theorem clean_of_names {d d' : Dir} (h : d'.names = d.names) (hc : d.Clean) : d'.Clean := by
  refine ⟨by rw [h]; exact hc.nodup, by rw [h]; exact hc.ts⟩

theorem listing_of_names {d d' : Dir} (h : d'.names = d.names) : d'.listing = d.listing := by
  unfold Dir.listing; rw [h]

variable {lev : Nat → Nat} {maxLen : Nat} {sure h : List LogOp} {k : Keeper} {es : List Entry} {last : List LogOp}

theorem KInv.cur_mem (hk : KInv lev maxLen sure h k es last) : k.cur ∈ k.dir.names :=
  (mem_listing.1 (by rw [hk.listing]; simp)).1

theorem KInv.names_ne (hk : KInv lev maxLen sure h k es last) {e : Entry} (he : e ∈ es) : e.name ≠ k.cur := by
  have := nodup_of_ts hk.clean.listing_nodup
  rw [hk.listing, List.nodup_append] at this
  exact this.2.2 _ (List.mem_map_of_mem he) _ (by simp)

/-! ## writing -/

theorem KInv.write (hk : KInv lev maxLen sure h k es last) {op : LogOp} (ho : Plain lev maxLen op) :
    KInv lev maxLen sure (h ++ [op]) (k.write op) es (last ++ [op]) := by
  obtain ⟨d, h1, h2, h3⟩ := hk.sure
  refine ⟨hk.clean, hk.listing, hk.plain, hk.time, hk.bytes, hk.same, ?_, ?_, ?_, d, h1.trans (List.prefix_append _ _), h2, h3⟩
  · show k.dir.content k.cur ++ (k.buf ++ op.encode) = _
    rw [← List.append_assoc, hk.cur, encodeAll_append]; simp [encodeAll]
  · rw [hk.hist, List.append_assoc]
  · intro o hm
    rcases List.mem_append.1 hm with hm | hm
    · exact hk.ok o hm
    · simp only [List.mem_singleton] at hm; subst hm; exact ho

theorem KInv.spill (hk : KInv lev maxLen sure h k es last) (n : Nat) : KInv lev maxLen sure h (k.spill n) es last := by
  obtain ⟨d, h1, h2, h3⟩ := hk.sure
  have hd : (k.spill n).dir = k.dir.put k.cur (k.dir.content k.cur ++ k.buf.take n) := by
    unfold Keeper.spill Keeper.push; rw [if_pos hk.cur_mem]
  have hn : (k.spill n).dir.names = k.dir.names := by rw [hd]; exact put_old_names _ hk.cur_mem
  have hc : (k.spill n).dir.content k.cur = k.dir.content k.cur ++ k.buf.take n := by rw [hd, put_content, if_pos rfl]
  refine ⟨clean_of_names hn hk.clean, (listing_of_names hn).trans hk.listing, hk.plain, hk.time, fun e he => ?_, hk.same, ?_, hk.hist,
    hk.ok, d, h1, ?_, h3⟩
  · rw [hd, put_content, if_neg (hk.names_ne he)]; exact hk.bytes e he
  · show (k.spill n).dir.content k.cur ++ k.buf.drop n = _
    rw [hc, List.append_assoc, List.take_append_drop, hk.cur]
  · show _ <+: (k.spill n).dir.content k.cur
    rw [hc]; exact h2.trans (List.prefix_append _ _)

theorem flush_eq (k : Keeper) : k.flush = k.spill k.buf.length := by
  unfold Keeper.flush Keeper.spill
  rw [List.take_length, List.drop_length]

theorem KInv.flush (hk : KInv lev maxLen sure h k es last) : KInv lev maxLen h h k.flush es last := by
  have h1 := hk.spill k.buf.length
  rw [← flush_eq] at h1
  have hb : k.flush.dir.content k.flush.cur = encodeAll last := by
    have := h1.cur
    rwa [show k.flush.buf = [] from rfl, List.append_nil] at this
  exact ⟨h1.clean, h1.listing, h1.plain, h1.time, h1.bytes, h1.same, h1.cur, h1.hist, h1.ok, last, List.prefix_refl _,
    by rw [hb]; exact List.prefix_refl _, by rw [← hk.hist]; exact List.prefix_refl _⟩

theorem KInv.flushed (hk : KInv lev maxLen sure h k es last) : k.flush.dir.content k.cur = encodeAll last := by
  have h1 := hk.flush.cur
  rwa [show k.flush.buf = [] from rfl, List.append_nil] at h1

theorem KInv.weaken {sure' : List LogOp} (hk : KInv lev maxLen sure h k es last) (hs : sure' <+: sure) :
    KInv lev maxLen sure' h k es last := by
  obtain ⟨d, h1, h2, h3⟩ := hk.sure
  exact ⟨hk.clean, hk.listing, hk.plain, hk.time, hk.bytes, hk.same, hk.cur, hk.hist, hk.ok, d, h1, h2, hs.trans h3⟩

theorem KInv.sure_le (hk : KInv lev maxLen sure h k es last) : sure <+: h := by
  obtain ⟨d, h1, -, h3⟩ := hk.sure
  rw [hk.hist]
  exact h3.trans ((List.prefix_append_right_inj _).2 h1)

/-! ## switching -/

theorem KInv.switch (L : Limits) (hk : KInv lev maxLen sure h k es last) (force : Bool) :
    ∃ es' last', KInv lev maxLen (if force then h else sure) h (k.switch L force) es' last' := by
  unfold Keeper.switch
  by_cases hc : (k.dir.content k.cur).length ≤ L.maxSize ∧ force = false
  · rw [if_pos hc, hc.2]; exact ⟨es, last, hk⟩
  · rw [if_neg hc]
    have hf := hk.flush
    have hw : ∀ {k' : Keeper} {es' : List Entry} {last' : List LogOp}, KInv lev maxLen h h k' es' last' →
        KInv lev maxLen (if force then h else sure) h k' es' last' := by
      intro k' es' last' hk'
      cases force with
      | true => exact hk'
      | false => exact hk'.weaken hk.sure_le
    by_cases hn : k.now = k.cur.ts
    · -- the same second: the same file is opened again
      have he : (⟨k.now, .plain⟩ : FName) = k.cur := by
        rw [hn]
        have := hk.plain
        cases hcur : k.cur with
        | mk ts kind => rw [hcur] at this; simp only at this; subst this; rfl
      refine ⟨es, last, hw ?_⟩
      have hm : k.cur ∈ k.flush.dir.names := hf.cur_mem
      rw [he]
      unfold Dir.touch
      rw [if_pos hm]
      exact hf
    · have ht := hk.time
      have hlt : k.cur.ts < k.now := by omega
      have hnew : (⟨k.now, .plain⟩ : FName) ∉ k.flush.dir.names := by
        intro hm
        have h1 : (⟨k.now, .plain⟩ : FName) ∈ k.flush.dir.listing := mem_listing.2 ⟨hm, rfl⟩
        have h2 := listing_sorted k.flush.dir
        rw [hf.listing] at h1 h2
        rw [List.pairwise_append] at h2
        rcases List.mem_append.1 h1 with h1 | h1
        · have := h2.2.2 _ h1 k.cur (by simp [show k.flush.cur = k.cur from rfl])
          simp only at this; omega
        · simp only [List.mem_singleton] at h1
          have : k.now = k.cur.ts := by
            have := congrArg FName.ts h1
            exact this
          omega
      have hd : k.flush.dir.touch ⟨k.now, .plain⟩ = k.flush.dir.put ⟨k.now, .plain⟩ [] := by
        unfold Dir.touch; rw [if_neg hnew]
      have hnames : (k.flush.dir.put ⟨k.now, .plain⟩ []).names = k.flush.dir.names ++ [⟨k.now, .plain⟩] := put_names_new hnew
      have hne : ∀ n ∈ k.flush.dir.names, (k.flush.dir.put ⟨k.now, .plain⟩ []).content n = k.flush.dir.content n := by
        intro n hn'
        rw [put_content, if_neg]
        intro e; subst e; exact hnew hn'
      have hts : ((k.flush.dir.listing ++ [(⟨k.now, .plain⟩ : FName)]).map FName.ts).Nodup := by
        rw [List.map_append, List.nodup_append]
        refine ⟨hf.clean.listing_nodup, by simp, ?_⟩
        intro a ha b hb e
        simp only [List.map_cons, List.map_nil, List.mem_singleton] at hb
        subst hb; subst e
        obtain ⟨n, hn1, hn2⟩ := List.mem_map.1 ha
        have h2 := listing_sorted k.flush.dir
        rw [hf.listing] at hn1 h2
        rw [List.pairwise_append] at h2
        rcases List.mem_append.1 hn1 with hn1 | hn1
        · have := h2.2.2 _ hn1 k.cur (by simp [show k.flush.cur = k.cur from rfl])
          omega
        · simp only [List.mem_singleton] at hn1
          subst hn1
          exact hn hn2.symm
      have hperm : (k.flush.dir.listing ++ [(⟨k.now, .plain⟩ : FName)]).Perm
          ((k.flush.dir.put ⟨k.now, .plain⟩ []).names.filter FName.visible) := by
        rw [hnames, List.filter_append]
        exact (listing_perm _).append_right _
      have hlist : (k.flush.dir.put ⟨k.now, .plain⟩ []).listing = k.flush.dir.listing ++ [⟨k.now, .plain⟩] := by
        refine listing_eq hts hperm ?_
        rw [List.pairwise_append]
        refine ⟨listing_sorted _, by simp, ?_⟩
        intro a ha b hb
        simp only [List.mem_singleton] at hb
        subst hb
        have h2 := listing_sorted k.flush.dir
        rw [hf.listing] at ha h2
        rw [List.pairwise_append] at h2
        rcases List.mem_append.1 ha with ha | ha
        · have := h2.2.2 _ ha k.cur (by simp [show k.flush.cur = k.cur from rfl])
          show a.ts ≤ k.now
          omega
        · simp only [List.mem_singleton] at ha
          subst ha
          show k.cur.ts ≤ k.now
          omega
      refine ⟨es ++ [⟨k.cur, last, last⟩], [], hw ?_⟩
      rw [hd]
      have hlok : ∀ op ∈ last, Plain lev maxLen op := fun op hop => hk.ok op (by rw [hk.hist]; exact List.mem_append_right _ hop)
      refine ⟨⟨?_, nodup_map_perm hperm.symm hts⟩, ?_, rfl, Nat.le_refl _, ?_, ?_, ?_, ?_, hk.ok, [], List.prefix_refl _, ?_, ?_⟩
      · show (k.flush.dir.put ⟨k.now, .plain⟩ []).names.Nodup
        rw [hnames, List.nodup_append]
        refine ⟨hf.clean.nodup, by simp, fun a ha b hb e => ?_⟩
        simp only [List.mem_singleton] at hb
        subst hb; subst e; exact hnew ha
      · show (k.flush.dir.put ⟨k.now, .plain⟩ []).listing = _
        rw [hlist, hf.listing]; simp; rfl
      · intro e he
        rcases List.mem_append.1 he with he | he
        · have hm : e.name ∈ k.flush.dir.names :=
            (mem_listing.1 (by rw [hf.listing]; exact List.mem_append_left _ (List.mem_map_of_mem he))).1
          exact (hne _ hm).trans (hf.bytes e he)
        · simp only [List.mem_singleton] at he
          subst he
          exact (hne _ hf.cur_mem).trans hk.flushed
      · intro e he
        rcases List.mem_append.1 he with he | he
        · exact hk.same e he
        · simp only [List.mem_singleton] at he
          subst he
          exact Same.refl hlok
      · show (k.flush.dir.put ⟨k.now, .plain⟩ []).content ⟨k.now, .plain⟩ ++ [] = _
        rw [put_content, if_pos rfl]; rfl
      · rw [hk.hist]; simp
      · exact List.nil_prefix
      · rw [hk.hist]; simp

/-! ## condensing -/

theorem KInv.sweep (hk : KInv lev maxLen sure h k es last) :
    KInv lev maxLen sure h ⟨k.dir.sweep, k.cur, k.buf, k.now⟩ es last :=
  ⟨sweep_clean hk.clean, (sweep_listing _).trans hk.listing, hk.plain, hk.time, hk.bytes, hk.same, hk.cur, hk.hist, hk.ok, hk.sure⟩

theorem split_map {α β : Type} {f : α → β} {l : List α} {pre post : List β} {b : β} (h : l.map f = pre ++ b :: post) :
    ∃ l1 a l2, l = l1 ++ a :: l2 ∧ l1.map f = pre ∧ f a = b ∧ l2.map f = post := by
  rw [List.map_eq_append_iff] at h
  obtain ⟨l1, l3, rfl, h1, h2⟩ := h
  rw [List.map_eq_cons_iff] at h2
  obtain ⟨a, l2, rfl, h3, h4⟩ := h2
  exact ⟨l1, a, l2, rfl, h1, h3, h4⟩

/-- the operations of a file never have more links than the history -/
theorem KInv.lens (hk : KInv lev maxLen sure h k es last) (hl : ∀ p, p <+: h → ∀ i l, linkLens p i l ≤ 65535) {e : Entry}
    (he : e ∈ es) (i l : Nat) : lensAt i l 0 e.ops ≤ 65535 := by
  obtain ⟨l1, l2, rfl⟩ := List.append_of_mem he
  rw [(hk.same e he).lens]
  refine Nat.le_trans (lensAt_part i l 0 (l1.flatMap Entry.seg) e.seg) ?_
  rw [← linkLens_eq]
  refine hl _ ?_ i l
  rw [hk.hist]
  simp only [List.flatMap_append, List.flatMap_cons, List.append_assoc]
  exact (List.prefix_append_right_inj _).2 (List.prefix_append _ _)

/-- the log that is condensed is one of the closed ones -/
theorem KInv.candidate (hk : KInv lev maxLen sure h k es last) {n : FName} (hn : k.dir.candidate = some n) :
    ∃ l1 e l2, es = l1 ++ e :: l2 ∧ e.name = n ∧ n.kind = .plain ∧
      Replaceable k.dir n (l1.map Entry.name) (l2.map Entry.name ++ [k.cur]) := by
  unfold Dir.candidate at hn
  have h1 := List.mem_of_find?_eq_some hn
  have h2 : n.kind = .plain := by simpa using List.find?_some hn
  rw [hk.listing, List.dropLast_concat] at h1
  obtain ⟨e, he, rfl⟩ := List.mem_map.1 h1
  obtain ⟨l1, l2, rfl⟩ := List.append_of_mem he
  refine ⟨l1, e, l2, rfl, rfl, h2, hk.clean, ?_, h2⟩
  rw [hk.listing]; simp

theorem condensedWith_new {d : Dir} {n : FName} (c : Bytes) (h : n.cond ∉ d.names) : d.condensedWith n c = d.put n.cond c := by
  unfold Dir.condensedWith; rw [if_neg h, List.nil_append]

theorem KInv.condense (hm : 56250 ≤ maxLen) (hk : KInv lev maxLen sure h k es last)
    (hl : ∀ p, p <+: h → ∀ i l, linkLens p i l ≤ 65535) {order : LogState → List Nat} (ho : ∀ s, (order s).Perm s.tombs) :
    ∃ es', KInv lev maxLen sure h ⟨k.dir.condenseOne maxLen order, k.cur, k.buf, k.now⟩ es' last := by
  have hs := hk.sweep
  unfold Dir.condenseOne
  cases hc : k.dir.sweep.candidate with
  | none => exact ⟨es, hs⟩
  | some n =>
    obtain ⟨l1, e, l2, rfl, rfl, hp, hR⟩ := hs.candidate hc
    have he : e ∈ l1 ++ e :: l2 := by simp
    obtain ⟨ops', h1, h2⟩ := condense_same hm (hs.same e he).ok (hs.lens hl he) ho
    rw [← hs.bytes e he] at h1
    simp only at h1
    simp only [h1]
    rw [condensedWith_new _ hR.cond_new]
    have hcont : ∀ m ∈ k.dir.sweep.listing, ((k.dir.sweep.put e.name.cond (encodeAll ops')).erase e.name).content m =
        k.dir.sweep.content m := by
      intro m hm'
      show (if m = e.name.cond then _ else _) = _
      rw [if_neg]
      intro e'; subst e'
      exact hR.cond_new (mem_listing.1 hm').1
    have hlist : ∀ x ∈ l1 ++ e :: l2, x.name ∈ k.dir.sweep.listing := fun x hx => by
      have := hs.listing
      simp only at this
      rw [this]; exact List.mem_append_left _ (List.mem_map_of_mem hx)
    have hcur : k.cur ∈ k.dir.sweep.listing := by
      have := hs.listing
      simp only at this
      rw [this]; simp
    obtain ⟨d, d1, d2, d3⟩ := hs.sure
    refine ⟨l1 ++ ⟨e.name.cond, e.seg, ops'⟩ :: l2, hR.clean_done _, ?_, hk.plain, hk.time, ?_, ?_, ?_, ?_, hk.ok, d, d1, ?_, ?_⟩
    · show ((k.dir.sweep.put e.name.cond (encodeAll ops')).erase e.name).listing = _
      rw [hR.listing_done]; simp
    · intro x hx
      rcases List.mem_append.1 hx with hx | hx
      · exact (hcont _ (hlist x (by simp [hx]))).trans (hs.bytes x (by simp [hx]))
      · rcases List.mem_cons.1 hx with hx | hx
        · subst hx
          show (if e.name.cond = e.name.cond then _ else _) = _
          rw [if_pos rfl]
        · exact (hcont _ (hlist x (by simp [hx]))).trans (hs.bytes x (by simp [hx]))
    · intro x hx
      rcases List.mem_append.1 hx with hx | hx
      · exact hs.same x (by simp [hx])
      · rcases List.mem_cons.1 hx with hx | hx
        · subst hx; exact h2.trans (hs.same e he)
        · exact hs.same x (by simp [hx])
    · show ((k.dir.sweep.put e.name.cond (encodeAll ops')).erase e.name).content k.cur ++ k.buf = _
      rw [hcont _ hcur]; exact hs.cur
    · rw [hk.hist]; simp
    · show _ <+: ((k.dir.sweep.put e.name.cond (encodeAll ops')).erase e.name).content k.cur
      rw [hcont _ hcur]; exact d2
    · simpa using d3

/-! ## combining -/

/-- the logs that are combined are two neighbouring closed ones -/
theorem KInv.match_ (hk : KInv lev maxLen sure h k es last) {size : FName → Nat} {t : Nat} {a b : FName}
    (hm : firstMatch size t k.dir.listing = some (a, b)) :
    ∃ l1 ea eb l2, es = l1 ++ ea :: eb :: l2 ∧ ea.name = a ∧ eb.name = b ∧
      Combinable k.dir a b (l1.map Entry.name) (l2.map Entry.name ++ [k.cur]) := by
  obtain ⟨pre, post, h1, h2, h3, -⟩ := firstMatch_split hm
  have hpost : post ≠ [] := by
    rintro rfl
    have : k.cur = b := by
      have h4 : (k.dir.listing).getLast? = some b := by rw [h1]; simp
      rw [hk.listing] at h4
      simpa using h4
    rw [← this, hk.plain] at h3
    cases h3
  obtain ⟨post', c, rfl⟩ : ∃ p c, post = p ++ [c] := ⟨_, _, (List.dropLast_concat_getLast hpost).symm⟩
  have h5 : es.map Entry.name ++ [k.cur] = (pre ++ a :: b :: post') ++ [c] := by
    rw [← hk.listing, h1]; simp
  obtain ⟨h6, h7⟩ := List.append_inj' h5 rfl
  cases h7
  obtain ⟨l1, ea, l3, rfl, rfl, rfl, h8⟩ := split_map h6
  rw [List.map_eq_cons_iff] at h8
  obtain ⟨eb, l2, rfl, rfl, rfl⟩ := h8
  refine ⟨l1, ea, eb, l2, rfl, rfl, rfl, hk.clean, ?_, h2, h3⟩
  rw [hk.listing]; simp

theorem KInv.combine (hk : KInv lev maxLen sure h k es last) (threshold : Nat) :
    ∃ es', KInv lev maxLen sure h ⟨k.dir.combineOne threshold, k.cur, k.buf, k.now⟩ es' last := by
  have hs := hk.sweep
  unfold Dir.combineOne
  cases hc : firstMatch (fun n => (k.dir.sweep.content n).length) threshold k.dir.sweep.listing with
  | none => exact ⟨es, hs⟩
  | some ab =>
    obtain ⟨a, b⟩ := ab
    obtain ⟨l1, ea, eb, l2, rfl, rfl, rfl, hC⟩ := hs.match_ hc
    simp only
    have hcont : ∀ m ∈ k.dir.sweep.listing, (k.dir.sweep.combine ea.name eb.name).content m = k.dir.sweep.content m := by
      intro m hm'
      have h1 := hC.split
      simp only at h1
      rw [h1] at hm'
      exact hC.content hm'
    have hlist : ∀ x ∈ l1 ++ ea :: eb :: l2, x.name ∈ k.dir.sweep.listing := fun x hx => by
      have := hs.listing
      simp only at this
      rw [this]; exact List.mem_append_left _ (List.mem_map_of_mem hx)
    have hcur : k.cur ∈ k.dir.sweep.listing := by
      have := hs.listing
      simp only at this
      rw [this]; simp
    have hea : ea ∈ l1 ++ ea :: eb :: l2 := by simp
    have heb : eb ∈ l1 ++ ea :: eb :: l2 := by simp
    obtain ⟨d, d1, d2, d3⟩ := hs.sure
    refine ⟨l1 ++ ⟨ea.name.base, ea.seg ++ eb.seg, ea.ops ++ eb.ops⟩ :: l2, hC.clean_done, ?_, hk.plain, hk.time, ?_, ?_, ?_, ?_, hk.ok,
      d, d1, ?_, ?_⟩
    · show (k.dir.sweep.combine ea.name eb.name).listing = _
      have := hC.listing_done
      simp only at this
      rw [this]; simp
    · intro x hx
      rcases List.mem_append.1 hx with hx | hx
      · exact (hcont _ (hlist x (by simp [hx]))).trans (hs.bytes x (by simp [hx]))
      · rcases List.mem_cons.1 hx with hx | hx
        · subst hx
          show (k.dir.sweep.renamed ea.name eb.name).content ea.name.base = _
          rw [Combinable.content_base]
          unfold Dir.merged
          have h1 := hs.bytes ea hea
          have h2 := hs.bytes eb heb
          simp only at h1 h2
          rw [h1, h2, encodeAll_append]
        · exact (hcont _ (hlist x (by simp [hx]))).trans (hs.bytes x (by simp [hx]))
    · intro x hx
      rcases List.mem_append.1 hx with hx | hx
      · exact hs.same x (by simp [hx])
      · rcases List.mem_cons.1 hx with hx | hx
        · subst hx; exact (hs.same ea hea).append (hs.same eb heb)
        · exact hs.same x (by simp [hx])
    · show (k.dir.sweep.combine ea.name eb.name).content k.cur ++ k.buf = _
      rw [hcont _ hcur]; exact hs.cur
    · rw [hk.hist]; simp
    · show _ <+: (k.dir.sweep.combine ea.name eb.name).content k.cur
      rw [hcont _ hcur]; exact d2
    · simpa using d3

end Log
end Fave
