import Verif.Lemmas.ChangeAdd
import Verif.Lemmas.ClientAdd
import Verif.Spec.Numbers
/-!
# Changing the type of distances: requests
-/
namespace Fave.Client
variable {F D D' : Type} [Dist D] [Dist D'] [DecidableEq F] {f : D → D'} {g : D' → D} {G Q : List F → Prop}

/-- the same schedule with the other distances -/
def schedBack (f : D → D') (g : D' → D) (hgf : ∀ d, g (f d) = d) (s : Sched D') : Sched D where
  order n l := (s.order n (l.map (Item.to f))).map (Item.to g)
  perm n l := by
    have h := (s.perm n (l.map (Item.to f))).map (Item.to g)
    rw [List.map_map] at h
    have : (Item.to g ∘ Item.to f : Item D → Item D) = id := by
      funext x
      simp only [Function.comp, Item.to, hgf, id]
    rw [this, List.map_id] at h
    exact h

theorem schedBack_same (hgf : ∀ d, g (f d) = d) (s : Sched D') : Sched.Same f (schedBack f g hgf s) s := by
  intro n l
  show _ = ((s.order n (l.map (Item.to f))).map (Item.to g)).map (Item.to f)
  rw [List.map_map]
  conv => lhs; rw [← List.map_id (s.order n (l.map (Item.to f)))]
  refine List.map_congr_left fun x hx => ?_
  obtain ⟨y, -, rfl⟩ := List.mem_map.1 ((s.perm n (l.map (Item.to f))).mem_iff.1 hx)
  simp only [Function.comp, Item.to, hgf, id]

/-- the same answers of everything around with the other distances -/
def Oracle.back (f : D → D') (g : D' → D) (hgf : ∀ d, g (f d) = d) (o : Oracle F D') : Oracle F D where
  kvCount := o.kvCount
  openTable := o.openTable
  isOpen := o.isOpen
  newIndex := o.newIndex
  docOpen := o.docOpen
  docCreate := o.docCreate
  createTable := o.createTable
  docDelete := o.docDelete
  deleteTable := o.deleteTable
  docList := o.docList
  count := o.count
  entry := o.entry
  commit := o.commit
  put := o.put
  marshal := o.marshal
  find := o.find
  cut := o.cut
  corpi := o.corpi
  vo := o.vo
  sched i l := schedBack f g hgf (o.sched i l)
  level := o.level
  order := o.order
  order_mem := o.order_mem

/-- the same request -/
def Req.back (f : D → D') (g : D' → D) (hgf : ∀ d, g (f d) = d) : Req F D' → Req F D
  | .login ok => .login ok
  | .openPod ok => .openPod ok
  | .create o n i => .create (o.back f g hgf) n i
  | .delete o n => .delete (o.back f g hgf) n
  | .list o => .list (o.back f g hgf)
  | .add o n ti docs => .add (o.back f g hgf) n ti docs
  | .nearVector o n q m l => .nearVector (o.back f g hgf) n q (g m) l
  | .nearText o n t m l => .nearText (o.back f g hgf) n t (g m) l
  | .get o s n p v => .get (o.back f g hgf) s n p v
  | .restart => .restart

/-- the same answer -/
def Ans.to (f : D → D') : Ans F D → Ans F D'
  | .done => .done
  | .failed e => .failed e
  | .names l => .names l
  | .near docs ds => .near docs (ds.map f)
  | .doc p => .doc p

/-- both servers -/
structure Env.Same (f : D → D') (G Q : List F → Prop) (E : Env F D) (E' : Env F D') : Prop where
  P : Params.Same f G E.P E'.P
  replace : E'.replace = E.replace
  norm : ∀ v, Q v → G (E.P.norm v)

/-- all stored vectors have the property -/
def World.Good (G : List F → Prop) (w : World F) : Prop := ∀ c, Index.Good G (w.coll c).idx

theorem World.Good.set {w : World F} (h : w.Good G) {c : Str} {x : Coll F} (hx : Index.Good G x.idx) : (w.setColl c x).Good G := by
  intro n
  unfold World.setColl
  simp only
  split
  · exact hx
  · exact h n

variable (hf : Change f) (hgf : ∀ d, g (f d) = d) {E : Env F D} {E' : Env F D'} (hE : Env.Same f G Q E E')

theorem storeDoc_back (hr : E'.replace = E.replace) (o : Oracle F D') (i : Nat) (b : Batch F) (p : Props F) (n : Option Nat) :
    storeDoc E' o i b p n = storeDoc E (o.back f g hgf) i b p n := by
  unfold storeDoc
  rw [hr]
  rfl

theorem storeDoc_same (E : Env F D) (o : Oracle F D) (i : Nat) (b : Batch F) (p : Props F) (n : Option Nat) : (storeDoc E o i b p n).1.idx = b.idx := by
  unfold storeDoc
  split
  · rfl
  · split <;> rfl

include hf hE

theorem indexDoc_back {o : Oracle F D'} (ho : o.Are G Q) (i : Nat) {b : Batch F} (hb : Index.Good G b.idx) (p : Props F) {vec : List F} (hv : Q vec) :
    indexDoc E' o i b p vec = indexDoc E (o.back f g hgf) i b p vec ∧ Index.Good G (indexDoc E (o.back f g hgf) i b p vec).1.idx := by
  unfold indexDoc
  obtain ⟨h1, h2⟩ := Index.add_to (ho.vo i) hf hE.P (fun l => schedBack_same hgf (o.sched i l)) hb b.next (vec := vec) (fun _ => hE.norm vec hv) (o.level i)
  rw [h1]
  rw [show (o.back f g hgf).sched i = fun l => schedBack f g hgf (o.sched i l) from rfl, show (o.back f g hgf).vo i = o.vo i from rfl,
    show (o.back f g hgf).level i = o.level i from rfl]
  cases hc : Index.add E.P (o.vo i) (fun l => schedBack f g hgf (o.sched i l)) b.idx b.next vec (o.level i) with
  | mk s e =>
    rw [hc] at h2
    cases e with
    | none =>
      simp only
      refine ⟨storeDoc_back hgf hE.replace _ _ _ _ _, ?_⟩
      rw [storeDoc_same]
      exact h2
    | some e => cases e <;> exact ⟨rfl, h2⟩

omit hf hE in
/-- a document without vector -/
def addText (E : Env F D) (o : Oracle F D) (lookup : Bool) (i : Nat) (b : Batch F) (p : Props F) : Except Err Str → Batch F × Option Err
  | .error e => (b, some e)
  | .ok text =>
    if text = [] then storeDoc E o i b (p.set hnswName (.int (-1))) none
    else if !lookup then (b, some .error)
    else
      match o.corpi i text with
      | .fail => ({ b with log := b.log ++ [.noVector] }, none)
      | .nil => (b, some .panic)
      | .vec vec => indexDoc E o i b (p.set hnswName (.int b.next)) vec

theorem addText_back {o : Oracle F D'} (ho : o.Are G Q) (lookup : Bool) (i : Nat) {b : Batch F} (hb : Index.Good G b.idx) (p : Props F)
    (t : Except Err Str) : addText E' o lookup i b p t = addText E (o.back f g hgf) lookup i b p t ∧
      Index.Good G (addText E (o.back f g hgf) lookup i b p t).1.idx := by
  cases t with
  | error e => exact ⟨rfl, hb⟩
  | ok t =>
    unfold addText
    simp only
    split
    · refine ⟨storeDoc_back hgf hE.replace _ _ _ _ _, ?_⟩
      rw [storeDoc_same]; exact hb
    · split
      · exact ⟨rfl, hb⟩
      · rw [show (o.back f g hgf).corpi i t = o.corpi i t from rfl]
        cases hc : o.corpi i t with
        | fail => exact ⟨rfl, hb⟩
        | nil => exact ⟨rfl, hb⟩
        | vec v => exact indexDoc_back hf hgf hE ho i hb _ (ho.corpi i t v hc)

theorem addOne_back {o : Oracle F D'} (ho : o.Are G Q) (lookup : Bool) (ti : List Str) (i : Nat) {b : Batch F} (hb : Index.Good G b.idx)
    {x : Option (Doc F)} (hx : DocsAre Q [x]) :
    addOne E' o lookup ti i b x = addOne E (o.back f g hgf) lookup ti i b x ∧ Index.Good G (addOne E (o.back f g hgf) lookup ti i b x).1.idx := by
  cases x with
  | none => exact ⟨rfl, hb⟩
  | some d =>
    obtain ⟨hl, hfl⟩ := hx d (by simp)
    have hget : (d.props.set idName (.str d.id)).get vectorName = d.props.get vectorName := by
      rw [Map.get_set, if_neg (by decide)]
    unfold addOne
    simp only
    rw [hget]
    cases hp : d.props.get vectorName with
    | none => exact addText_back hf hgf hE ho lookup i hb _ _
    | some v =>
      cases v with
      | null => exact addText_back hf hgf hE ho lookup i hb _ _
      | str _ => exact ⟨rfl, hb⟩
      | int _ => exact ⟨rfl, hb⟩
      | other _ => exact ⟨rfl, hb⟩
      | floats v => exact indexDoc_back hf hgf hE ho i hb _ (hfl v hp)
      | list l =>
        simp only
        cases hv : parseVec l with
        | none => exact ⟨rfl, hb⟩
        | some v => exact indexDoc_back hf hgf hE ho i hb _ (hl l v hp (parseVec_map.1 hv))

theorem addLoop_back {o : Oracle F D'} (ho : o.Are G Q) (lookup : Bool) (ti : List Str) : ∀ (docs : List (Option (Doc F))) (i : Nat) {b : Batch F},
    Index.Good G b.idx → DocsAre Q docs →
    addLoop E' o lookup ti i docs b = addLoop E (o.back f g hgf) lookup ti i docs b ∧ Index.Good G (addLoop E (o.back f g hgf) lookup ti i docs b).1.idx
  | [], _, _, hb, _ => ⟨rfl, hb⟩
  | d :: ds, i, b, hb, hd => by
    unfold addLoop
    obtain ⟨h1, h2⟩ := addOne_back hf hgf hE ho lookup ti i hb (x := d) (fun x hx => hd x (by simp only [List.mem_singleton] at hx; simp [hx]))
    rw [h1]
    cases hc : addOne E (o.back f g hgf) lookup ti i b d with
    | mk b1 e =>
      rw [hc] at h2
      cases e with
      | some e => exact ⟨rfl, h2⟩
      | none => exact addLoop_back ho lookup ti ds (i + 1) h2 fun x hx => hd x (by simp [hx])

omit hf in
theorem flushCut_back (cut : Option Nat) {s : Index (List F)} (h : Index.Good G s) (order : List Nat) (n : Nat) :
    flushCut E'.P cut s order n = flushCut E.P cut s order n ∧ Index.Good G (flushCut E.P cut s order n).1 := by
  unfold flushCut
  obtain ⟨h1, h2⟩ := Index.flush_to hE.P h order n
  simp only
  rw [h1, Index.flushUpToBad_to hE.P (h.writes order n)]
  refine ⟨rfl, ?_⟩
  cases cut with
  | none => exact h2
  | some k =>
    simp only
    split
    · exact h.apply fun v hv => h.writes order n v (Index.flushUpToBad_sub E.P (List.mem_of_mem_take hv))
    · exact h2

omit hf hE in
theorem ensureOpen_back (o : Oracle F D') (w : World F) (c : Str) : ensureOpen o w c = ensureOpen (o.back f g hgf) w c := rfl

omit hf hE in
theorem ensureOpen_good (o : Oracle F D) {w : World F} (h : w.Good G) (c : Str) : (ensureOpen o w c).1.Good G := by
  unfold ensureOpen
  simp only
  have h1 : (w.setColl c { w.coll c with tableOpen := true }).Good G := h.set (h c)
  split
  · exact h
  · split
    · exact h
    · split
      · exact h1
      · split
        · exact h1
        · split
          · exact h1
          · have h2 := h1.set (c := c) (x := { (w.setColl c { w.coll c with tableOpen := true }).coll c with
              idx := ((w.setColl c { w.coll c with tableOpen := true }).coll c).idx.reopen, hasIdx := true }) (h1 c).reopen
            split
            · exact h2
            · exact h2.set (h2 c)

theorem addDocuments_back {o : Oracle F D'} (ho : o.Are G Q) {w : World F} (hw : w.Good G) (name : Str) (ti : List Str) {docs : List (Option (Doc F))}
    (hd : DocsAre Q docs) : addDocuments E' o w name ti docs = addDocuments E (o.back f g hgf) w name ti docs ∧
      (addDocuments E (o.back f g hgf) w name ti docs).1.Good G := by
  unfold addDocuments
  rw [show addBegin (o.back f g hgf) w name = addBegin o w name from rfl]
  have hgood : (addBegin o w name).1.Good G := by
    unfold addBegin
    simp only
    have := ensureOpen_good o hw (ns ++ name)
    cases hc : ensureOpen o w (ns ++ name) with
    | mk w1 e =>
      rw [hc] at this
      cases e with
      | some e => exact this
      | none =>
        simp only
        split <;> exact this
  cases hc : addBegin o w name with
  | mk w1 r =>
    rw [hc] at hgood
    cases r with
    | error e => exact ⟨rfl, hgood⟩
    | ok count =>
      simp only
      unfold addFinish
      simp only
      obtain ⟨h1, h2⟩ := addLoop_back hf hgf hE ho w1.lookup ti docs 0 (b := ⟨(w1.coll (ns ++ name)).idx, ((w1.dbs.get (ns ++ name)).getD ⟨[], []⟩).docs, count, []⟩)
        (hgood _) hd
      rw [h1]
      generalize addLoop E (o.back f g hgf) w1.lookup ti 0 docs ⟨(w1.coll (ns ++ name)).idx, ((w1.dbs.get (ns ++ name)).getD ⟨[], []⟩).docs, count, []⟩ = r at h2 ⊢
      have h3 : ({ (w1.setColl (ns ++ name) { w1.coll (ns ++ name) with idx := r.1.idx }) with
          dbs := w1.dbs.map (fun e => if e.1 = ns ++ name then (ns ++ name, { e.2 with docs := r.1.docs }) else e) } : World F).Good G := hgood.set h2
      obtain ⟨h4, h5⟩ := flushCut_back hE o.cut h2 (o.order r.1.idx.cache.keys) r.1.next
      rw [h4]
      refine ⟨rfl, ?_⟩
      cases r.2 with
      | some e => exact h3
      | none =>
        simp only
        have h6 := h3.set (c := ns ++ name) (x := { ({ (w1.setColl (ns ++ name) { w1.coll (ns ++ name) with idx := r.1.idx }) with
          dbs := w1.dbs.map (fun e => if e.1 = ns ++ name then (ns ++ name, { e.2 with docs := r.1.docs }) else e) } : World F).coll (ns ++ name) with
            idx := (flushCut E.P o.cut r.1.idx (o.order r.1.idx.cache.keys) r.1.next).1 }) h5
        split <;> exact h6

omit hf hE in
theorem lookupAll_back (o : Oracle F D') (docs : List (Props F)) : ∀ (ids : List Nat) (i : Nat),
    lookupAll o docs i ids = lookupAll (o.back f g hgf) docs i ids
  | [], _ => rfl
  | id :: ids, i => by
    unfold lookupAll
    rw [lookupAll_back o docs ids]
    rfl

omit hf hE [DecidableEq F] in
theorem loaded_good (o : Oracle F D) {s : Index (List F)} (h : Index.Good G s) : Index.Good G (loaded o s) := by
  unfold loaded
  split <;> exact h.meta rfl rfl

omit hf in
theorem nearWith_world {o : Oracle F D'} (w : World F) (c : Str) (q : List F) (max : D') (max' : D) (ef limit : Int) :
    (nearWith E' o w c q max ef limit).1 = (nearWith E (o.back f g hgf) w c q max' ef limit).1 := by
  unfold nearWith
  split <;> rfl

omit hf hE in
theorem nearWith_good (o : Oracle F D) {w : World F} (hw : w.Good G) (c : Str) (q : List F) (max : D) (ef limit : Int) :
    (nearWith E o w c q max ef limit).1.Good G := by
  unfold nearWith
  split
  · exact hw
  · exact hw.set (loaded_good o (hw c))

theorem nearWith_back (o : Oracle F D') {w : World F} (hw : w.Good G) (c : Str) {q : List F} (hq : Q q) (max : D) (ef limit : Int) :
    (nearWith E' o w c q (f max) ef limit).2 = (nearWith E (o.back f g hgf) w c q max ef limit).2.map fun r => (r.1, r.2.map f) := by
  unfold nearWith
  split
  · rfl
  · simp only
    rw [show loaded (o.back f g hgf) (w.coll c).idx = loaded o (w.coll c).idx from rfl,
      Graph.knnMaxDist_to hf (Index.graph_same hE.P (loaded_good o (hw c))) (fun l => schedBack_same hgf (o.sched 0 l)) (hE.norm q hq)]
    rw [show (o.back f g hgf).sched 0 = fun l => schedBack f g hgf (o.sched 0 l) from rfl]
    cases ((loaded o (w.coll c).idx).graph E.P).knnMaxDist (fun l => schedBack f g hgf (o.sched 0 l)) q max ef none with
    | error e => rfl
    | ok r =>
      obtain ⟨ids, ds⟩ := r
      simp only [Except.map]
      have ht : truncate limit ids (ds.map f) = (truncate limit ids ds).map fun r => (r.1, r.2.map f) := by
        unfold truncate
        split
        · split
          · rfl
          · simp only [Except.map, List.map_take]
        · rfl
      rw [ht]
      cases truncate limit ids ds with
      | error e => rfl
      | ok r =>
        obtain ⟨ids, ds⟩ := r
        simp only [Except.map]
        rw [← lookupAll_back hgf]
        cases lookupAll o (((w.setColl c { w.coll c with idx := loaded o (w.coll c).idx }).dbs.get c).getD ⟨[], []⟩).docs 0 ids <;> rfl

/-- the limit of a search is one of the distances -/
def Req.Fits (f : D → D') (g : D' → D) : Req F D' → Prop
  | .nearVector _ _ _ m _ | .nearText _ _ _ m _ => f (g m) = m
  | _ => True

omit hf hE in
theorem create_good (o : Oracle F D) {w : World F} (hw : w.Good G) (n : Str) (i : Map IxType) : (create o w n i).1.Good G := by
  have hd : ∀ ix, (w.withDb (ns ++ n) ix).Good G := by
    intro ix
    unfold World.withDb
    split <;> exact hw
  have h1 : ∀ (v : World F) b, v.Good G → (v.setColl (ns ++ n) { v.coll (ns ++ n) with table := b }).Good G := fun v b h => h.set (h _)
  have h2 : ∀ (v : World F) b, v.Good G → (v.setColl (ns ++ n) { v.coll (ns ++ n) with dbOpen := b }).Good G := fun v b h => h.set (h _)
  have h3 : ∀ (v : World F) b, v.Good G → (v.setColl (ns ++ n) { v.coll (ns ++ n) with tableOpen := b }).Good G := fun v b h => h.set (h _)
  have h4 : ∀ (v : World F), v.Good G → (v.setColl (ns ++ n) { v.coll (ns ++ n) with idx := (v.coll (ns ++ n)).idx.reopen, hasIdx := true }).Good G :=
    fun v h => h.set (h _).reopen
  unfold create
  simp only
  split
  · exact hw
  · split
    · exact hw
    · split
      · exact hw
      · split
        · exact hd _
        · split
          · exact h1 _ _ (hd _)
          · split
            · exact h2 _ _ (h1 _ _ (hd _))
            · split
              · exact h3 _ _ (h2 _ _ (h1 _ _ (hd _)))
              · exact h4 _ (h3 _ _ (h2 _ _ (h1 _ _ (hd _))))

omit hf hE in
theorem delete_good (o : Oracle F D) {w : World F} (hw : w.Good G) (n : Str) : (delete o w n).1.Good G := by
  unfold delete
  simp only
  split
  · exact hw
  · split
    · exact hw
    · have h1 : (if o.docDelete = true then w else
          ({ w.setColl (ns ++ n) { w.coll (ns ++ n) with dbOpen := false } with dbs := w.dbs.del (ns ++ n) } : World F)).Good G := by
        split
        · exact hw
        · have : (w.setColl (ns ++ n) { w.coll (ns ++ n) with dbOpen := false }).Good G := hw.set (hw _)
          exact this
      generalize (if o.docDelete = true then w else
          ({ w.setColl (ns ++ n) { w.coll (ns ++ n) with dbOpen := false } with dbs := w.dbs.del (ns ++ n) } : World F)) = v at h1
      have h2 : (if o.deleteTable = true then v else
          v.setColl (ns ++ n) { v.coll (ns ++ n) with table := false, tableOpen := false, idx := Index.init }).Good G := by
        split
        · exact h1
        · exact h1.set Index.good_init
      exact h2.set (h2 _).reopen

theorem serve_back {w : World F} (hw : w.Good G) (r : Req F D') (hr : r.Are G Q) :
    (serve E' w r).1 = (serve E w (r.back f g hgf)).1 ∧ (serve E' w r).1.Good G ∧
    (r.Fits f g → (serve E' w r).2 = (serve E w (r.back f g hgf)).2.to f) := by
  cases r with
  | login ok =>
    refine ⟨rfl, ?_, fun _ => ?_⟩
    · show (login ok w).1.Good G
      unfold login
      split <;> exact hw
    · show Ans.ofErr (login ok w).2 = (Ans.ofErr (login ok w).2).to f
      cases (login ok w).2 <;> rfl
  | openPod ok =>
    refine ⟨rfl, ?_, fun _ => ?_⟩
    · show (openPod ok w).1.Good G
      unfold openPod
      split
      · exact hw
      · split <;> exact hw
    · show Ans.ofErr (openPod ok w).2 = (Ans.ofErr (openPod ok w).2).to f
      cases (openPod ok w).2 <;> rfl
  | create o n i =>
    refine ⟨rfl, ?_, fun _ => ?_⟩
    · exact create_good o hw n i
    · show Ans.ofErr (create o w n i).2 = (Ans.ofErr (create o w n i).2).to f
      cases (create o w n i).2 <;> rfl
  | delete o n =>
    refine ⟨rfl, ?_, fun _ => ?_⟩
    · exact delete_good o hw n
    · show Ans.ofErr (delete o w n).2 = (Ans.ofErr (delete o w n).2).to f
      cases (delete o w n).2 <;> rfl
  | list o =>
    refine ⟨rfl, hw, fun _ => ?_⟩
    show (match list o w with | .error e => Ans.failed e | .ok l => Ans.names l) =
      ((match list o w with | .error e => Ans.failed e | .ok l => Ans.names l : Ans F D)).to f
    cases list o w <;> rfl
  | add o n ti docs =>
    obtain ⟨h1, h2⟩ := addDocuments_back hf hgf hE hr.1 hw n ti hr.2
    simp only [serve, Req.back]
    rw [h1]
    refine ⟨rfl, h2, fun _ => ?_⟩
    cases (addDocuments E (o.back f g hgf) w n ti docs).2.2 <;> rfl
  | nearVector o n q m l =>
    simp only [serve, Req.back, nearVector]
    rw [← ensureOpen_back hgf o]
    have h0 := ensureOpen_good o hw (ns ++ n)
    cases hc : ensureOpen o w (ns ++ n) with
    | mk w1 e =>
      rw [hc] at h0
      cases e with
      | some e => exact ⟨rfl, h0, fun _ => rfl⟩
      | none =>
        simp only
        refine ⟨nearWith_world hgf hE _ _ _ _ _ _ _, nearWith_good o h0 _ _ _ _ _, fun hm => ?_⟩
        have hm : f (g m) = m := hm
        rw [← hm, nearWith_back hf hgf hE o h0 _ hr, hgf]
        cases (nearWith E (o.back f g hgf) w1 (ns ++ n) q (g m) 800 l).2 <;> rfl
  | nearText o n t m l =>
    simp only [serve, Req.back, nearText]
    rw [← ensureOpen_back hgf o]
    have h0 := ensureOpen_good o hw (ns ++ n)
    cases hc : ensureOpen o w (ns ++ n) with
    | mk w1 e =>
      rw [hc] at h0
      cases e with
      | some e => exact ⟨rfl, h0, fun _ => rfl⟩
      | none =>
        simp only
        rw [show (o.back f g hgf).corpi = o.corpi from rfl]
        split
        · exact ⟨rfl, h0, fun _ => rfl⟩
        · cases hcv : o.corpi 0 t with
          | fail => exact ⟨rfl, h0, fun _ => rfl⟩
          | nil => exact ⟨rfl, h0, fun _ => rfl⟩
          | vec q =>
            simp only
            refine ⟨nearWith_world hgf hE _ _ _ _ _ _ _, nearWith_good o h0 _ _ _ _ _, fun hm => ?_⟩
            have hm : f (g m) = m := hm
            rw [← hm, nearWith_back hf hgf hE o h0 _ (hr.corpi 0 t q hcv), hgf]
            cases (nearWith E (o.back f g hgf) w1 (ns ++ n) q (g m) l l).2 <;> rfl
  | get o s n p v =>
    refine ⟨rfl, ?_, fun _ => ?_⟩
    · show (getDocument o s w n p v).1.Good G
      unfold getDocument
      simp only
      split
      · exact hw
      · split
        · exact hw
        · exact hw.set (hw _)
    · show (match (getDocument o s w n p v).2 with | .error e => Ans.failed e | .ok p => Ans.doc p) =
        ((match (getDocument o s w n p v).2 with | .error e => Ans.failed e | .ok p => Ans.doc p : Ans F D)).to f
      cases (getDocument o s w n p v).2 <;> rfl
  | restart => exact ⟨rfl, fun c => (hw c).reopen, fun _ => rfl⟩

theorem run_back : ∀ (rs : List (Req F D')) {w : World F}, w.Good G → (∀ r ∈ rs, r.Are G Q) →
    run E' w rs = run E w (rs.map (Req.back f g hgf)) ∧ (run E' w rs).Good G
  | [], _, hw, _ => ⟨rfl, hw⟩
  | r :: rs, w, hw, h => by
    obtain ⟨h1, h2, -⟩ := serve_back hf hgf hE hw r (h r (by simp))
    obtain ⟨h3, h4⟩ := run_back rs h2 fun x hx => h x (by simp [hx])
    refine ⟨?_, h4⟩
    show run E' (serve E' w r).1 rs = run E (serve E w (r.back f g hgf)).1 (rs.map (Req.back f g hgf))
    rw [h3, h1]

omit hf hE in
theorem fresh_good (lookup : Bool) (dbs : Map (Db F)) : (World.fresh lookup dbs).Good G := fun _ => Index.good_init

end Fave.Client
