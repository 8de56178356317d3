import Verif.Props.Interrupt
import Verif.Props.Crash

/-! # C107: interrupted calls, the fields -/
namespace Verif

open DictHeap

/-! ## One interrupted call -/

/-- The dict of pending values at some point of a call: a field `k` that no setter assigns has its pending value, or, if it had none, its present value. -/
def KeyOk (V : Inst) (k : Key) (d : Data) : Prop := Dict.get? d k = V.lookup k ∨ (Dict.get? d k = none ∧ Dict.get? V.converted k = none)

/-- A point of a call before the layers are exchanged. -/
structure Early (h : DictHeap) (I : HInst) (k : Key) (s : Cells) : Prop where
  attrs : s.attrs = I
  map0 : s.map0 = I.raw
  map1 : s.map1 = I.converted
  map2 : s.map2 = I.valid
  len : h.length ≤ s.heap.length
  raw : s.heap.rd I.raw = []
  valid : s.heap.rd I.valid = h.rd I.valid
  pending : KeyOk (I.value h) k (s.heap.rd I.converted)

/-- Any point of a call; `new` is the valid layer which the call would leave. -/
structure Mid (h : DictHeap) (I : HInst) (k : Key) (new : Data) (s : Cells) : Prop where
  map0 : s.map0 = I.raw
  len : h.length ≤ s.heap.length
  raw : s.heap.rd I.raw = []
  pending : KeyOk (I.value h) k (s.heap.rd I.converted)
  map1 : s.map1 = I.converted ∨ s.heap.rd s.map1 = []
  attr1 : s.attrs.converted = I.converted ∨ s.heap.rd s.attrs.converted = []
  map2 : s.heap.rd s.map2 = h.rd I.valid ∨ s.heap.rd s.map2 = new
  attr2 : s.heap.rd s.attrs.valid = h.rd I.valid ∨ s.heap.rd s.attrs.valid = new
  lt1 : s.map1 < s.heap.length
  lt1' : s.attrs.converted < s.heap.length
  lt2 : s.map2 < s.heap.length
  lt2' : s.attrs.valid < s.heap.length

section
variable {h : DictHeap} {I : HInst} {k : Key} {new : Data}

theorem Early.mid (o : HInst.Ok h I) {s : Cells} (e : Early h I k s) (new : Data) : Mid h I k new s := by
  have := e.len
  have := o.valid
  have := o.converted
  refine ⟨e.map0, e.len, e.raw, e.pending, .inl e.map1, .inl (by rw [e.attrs]), .inl (by rw [e.map2]; exact e.valid), .inl (by rw [e.attrs]; exact e.valid), ?_, ?_, ?_, ?_⟩
  · rw [e.map1]; omega
  · rw [e.attrs]; omega
  · rw [e.map2]; omega
  · rw [e.attrs]; omega

theorem early_start (hr : h.rd I.raw = []) : Early h I k (Cells.of h I) := by
  refine ⟨rfl, rfl, rfl, rfl, Nat.le_refl _, hr, rfl, ?_⟩
  show KeyOk (I.value h) k (I.value h).converted
  unfold KeyOk
  rw [lookup_noraw (show (I.value h).raw = [] from hr)]
  cases hg : Dict.get? (I.value h).converted k with
  | some v => exact .inl rfl
  | none => exact .inr ⟨rfl, rfl⟩

/-- What a field reads in the middle of a call. -/
theorem Mid.reads {s : Cells} (m : Mid h I k new s) :
    s.lookup k = (I.value h).lookup k ∨ s.lookup k = Dict.get? (I.value h).valid k ∨ s.lookup k = Dict.get? new k := by
  have hl : s.lookup k = match Dict.get? (s.heap.rd s.map1) k with | some v => some v | none => Dict.get? (s.heap.rd s.map2) k := by
    unfold Cells.lookup
    rw [m.map0, m.raw]; rfl
  have tail : Dict.get? (s.heap.rd s.map2) k = Dict.get? (I.value h).valid k ∨ Dict.get? (s.heap.rd s.map2) k = Dict.get? new k := by
    rcases m.map2 with e | e <;> rw [e]
    · exact .inl rfl
    · exact .inr rfl
  rw [hl]
  rcases m.map1 with e | e
  · rw [e]
    cases hg : Dict.get? (s.heap.rd I.converted) k with
    | none => exact .inr tail
    | some v =>
      rcases m.pending with p | ⟨p, _⟩
      · left; rw [← p, hg]
      · rw [hg] at p; cases p
  · rw [e]; exact .inr tail

/-- Entries other than `k`, or `k` with its present value, stored into the pending dict. -/
theorem Early.wr (o : HInst.Ok h I) {s : Cells} (e : Early h I k s) {l : List (Key × Val)}
    (hl : KeyOk (I.value h) k ((s.heap.rd I.converted).update l)) : Early h I k { s with heap := s.heap.wr I.converted ((s.heap.rd I.converted).update l) } := by
  have hlt : I.converted < s.heap.length := Nat.lt_of_lt_of_le o.converted e.len
  refine ⟨e.attrs, e.map0, e.map1, e.map2, ?_, ?_, ?_, ?_⟩ <;> simp only []
  · rw [length_wr]; exact e.len
  · rw [rd_wr _ _ _ _ hlt, if_neg o.rc]; exact e.raw
  · rw [rd_wr _ _ _ _ hlt, if_neg (Ne.symm o.cv)]; exact e.valid
  · rw [rd_wr _ _ _ _ hlt, if_pos rfl]; exact hl

theorem Early.grow (o : HInst.Ok h I) {s : Cells} (e : Early h I k s) (d : Data) : Early h I k { s with heap := (s.heap.new d).1 } := by
  have := e.len
  refine ⟨e.attrs, e.map0, e.map1, e.map2, ?_, ?_, ?_, ?_⟩ <;> simp only []
  · rw [length_new]; omega
  · rw [rd_new _ _ _ (Nat.lt_of_lt_of_le o.raw e.len)]; exact e.raw
  · rw [rd_new _ _ _ (Nat.lt_of_lt_of_le o.valid e.len)]; exact e.valid
  · rw [rd_new _ _ _ (Nat.lt_of_lt_of_le o.converted e.len)]; exact e.pending

/-- Storing into a dict that belongs to no layer. -/
theorem Early.other (o : HInst.Ok h I) {s : Cells} (e : Early h I k s) {a : Nat} (ha : a < s.heap.length) (hn : h.length ≤ a) (d : Data) :
    Early h I k { s with heap := s.heap.wr a d } := by
  have h1 := o.raw
  have h2 := o.valid
  have h3 := o.converted
  refine ⟨e.attrs, e.map0, e.map1, e.map2, ?_, ?_, ?_, ?_⟩ <;> simp only []
  · rw [length_wr]; exact e.len
  · rw [rd_wr _ _ _ _ ha, if_neg (by omega)]; exact e.raw
  · rw [rd_wr _ _ _ _ ha, if_neg (by omega)]; exact e.valid
  · rw [rd_wr _ _ _ _ ha, if_neg (by omega)]; exact e.pending

theorem get?_prefix_none {d : Data} {l l1 l2 : List (Key × Val)} (hl : l1 ++ l2 = l) (hk : k ∉ Dict.keys l) : Dict.get? (d.update l1) k = Dict.get? d k := by
  refine Dict.get?_update_none _ _ fun hm => hk ?_
  rw [← hl]
  unfold Dict.keys at hm ⊢
  rw [List.map_append]
  exact List.mem_append_left _ hm

theorem get?_append {l1 l2 : Data} : Dict.get? (l1 ++ l2) k = (Dict.get? l1 k).or (Dict.get? l2 k) := by
  induction l1 with
  | nil => rfl
  | cons kv l1 ih =>
    obtain ⟨x, v⟩ := kv
    rw [List.cons_append, Dict.get?_cons, Dict.get?_cons]
    split
    · rfl
    · exact ih

/-- An interrupted `dict.update`: the entry `k` is the old one or the new one. -/
theorem get?_prefix {d : Data} {l l1 l2 : Data} (hl : l1 ++ l2 = l) (hn : l.Nodup) : Dict.get? (d.update l1) k = Dict.get? d k ∨ (∃ w, Dict.get? l k = some w ∧ Dict.get? (d.update l1) k = some w) := by
  have hn1 : l1.Nodup := by
    unfold Dict.Nodup Dict.keys at hn ⊢
    rw [← hl, List.map_append] at hn
    exact (List.nodup_append.1 hn).1
  rw [Dict.get?_update _ _ hn1]
  cases hg : Dict.get? l1 k with
  | none => exact .inl rfl
  | some w => exact .inr ⟨w, by rw [← hl, get?_append, hg]; rfl, rfl⟩

end

section
variable {env : Env} {n : Nat} {c : ClassDef} {h : DictHeap} {I : HInst} {fd : FieldDef}

theorem pending_view (hc : c.WF) {V : Inst} (hw : V.WF) (hr : V.raw = []) (hfd : Plain c fd) {conv : Data} (hcn : conv.Nodup)
    (hk : KeyOk V (.str fd.name) conv) {l1 l2 : Data} (hl : l1 ++ l2 = c.view ({ V with converted := conv } : Inst).content) :
    KeyOk V (.str fd.name) (conv.update l1) := by
  have hw' : ({ V with converted := conv } : Inst).WF := ⟨hw.raw, hcn, hw.valid, hw.stale⟩
  rcases get?_prefix (k := Key.str fd.name) hl (view_nodup hc _) with e | ⟨w, hg, e⟩
  · unfold KeyOk; rw [e]; exact hk
  · left
    rw [e, ← hg, view_get hc hfd.mem hfd.set hfd.get, Inst.content_get hw', lookup_noraw (by exact hr)]
    simp only []
    rcases hk with hk | ⟨hk, hk'⟩
    · rw [hk]
      cases hv : V.lookup (.str fd.name) with
      | some x => rfl
      | none =>
        rw [lookup_noraw hr] at hv
        cases hx : Dict.get? V.converted (Key.str fd.name) with
        | some y => rw [hx] at hv; cases hv
        | none => rw [hx] at hv; exact hv
    · rw [hk, lookup_noraw hr, hk']

/-- `_convert` on an eager instance, interrupted or not. -/
theorem early_convert (hc : c.WF) (o : HInst.Ok h I) (hw : (I.value h).WF) (hr : h.rd I.raw = []) (hfd : Plain c fd) (hna : NotAssigned c fd.name) (raw : Data) (ctx : Ctx) :
    Post (Steps.convert env n c raw ctx) (Cells.of h I) (fun _ s' => Early h I (.str fd.name) s') (fun _ s' => Early h I (.str fd.name) s') := by
  have e0 : Early h I (.str fd.name) (Cells.of h I) := early_start hr
  unfold Steps.convert
  refine Post.seq (Post.look (Q := fun _ s' => s' = Cells.of h I) rfl) ?_
  rintro p s rfl
  refine Post.seq (Q' := fun r s' => Early h I (.str fd.name) s' ∧ s'.heap.rd I.converted = h.rd I.converted ∧ (r = I.converted ∨ (h.length ≤ r ∧ r < s'.heap.length))) ?_ ?_
  · unfold Steps.given
    split
    · exact Post.look ⟨e0, rfl, .inl rfl⟩
    · refine Post.alloc ⟨e0.grow o _, ?_, .inr ⟨Nat.le_refl _, ?_⟩⟩ e0
      · exact rd_new _ _ _ o.converted
      · show h.length < (h.new raw).1.length
        rw [length_new]; omega
  rintro r s1 ⟨e1, hcv, hr1⟩
  refine Post.seq (Q' := fun r' s' => r' = r ∧ s' = s1) ?_ ?_
  · unfold Steps.takePending
    refine Post.seq (Post.look (Q := fun d s' => d = [] ∧ s' = s1) ⟨by rw [e1.attrs]; exact e1.raw, rfl⟩) ?_
    rintro d s' ⟨rfl, rfl⟩
    exact Post.ret ⟨rfl, rfl⟩
  rintro r' s' ⟨rfl, rfl⟩
  refine Post.seq (Post.look (Q := fun _ s'' => s'' = s') rfl) ?_
  rintro content s1 rfl
  refine Post.seq (Post.look (Q := fun _ s'' => s'' = s1) rfl) ?_
  rintro src s1 rfl
  split
  · refine Post.seq (Q' := fun _ s' => Early h I (.str fd.name) s') ?_ fun _ s' e => Post.ofR (fun _ _ => e) (fun _ _ => e) e
    unfold Steps.mutate
    refine Post.seq (Post.look (Q := fun _ s'' => s'' = s1) rfl) ?_
    rintro src' s1 rfl
    refine Post.seq (Post.look (Q := fun a s'' => a = I.converted ∧ s'' = s1) ⟨by rw [e1.attrs], rfl⟩) ?_
    rintro a s1 ⟨rfl, rfl⟩
    have hst : ∀ k : Ctx, Key.str fd.name ∉ Dict.keys (setterSteps (fieldConv env n) k src' c.settable) := fun k =>
      steps_keep fun x hx => hna x (List.mem_filter.1 hx).1
    refine Post.seq (Q' := fun _ s' => Early h I (.str fd.name) s' ∧ (s'.heap.rd I.converted).Nodup ∧ (r' = I.converted ∨ (h.length ≤ r' ∧ r' < s'.heap.length))) ?_ ?_
    · have hlt : I.converted < s1.heap.length := Nat.lt_of_lt_of_le o.converted e1.len
      refine Post.writeAt _ ⟨e1.wr o ?_, ?_, ?_⟩ fun l1 l2 hl => e1.wr o ?_
      · have := e1.pending
        unfold KeyOk at this ⊢
        rw [get?_prefix_none (l2 := []) (List.append_nil _) (hst _)]
        exact this
      · simp only []
        rw [rd_wr _ _ _ _ hlt, if_pos rfl]
        exact Dict.nodup_update (by rw [hcv]; exact hw.converted) _
      · simp only [length_wr]; exact hr1
      · have := e1.pending
        unfold KeyOk at this ⊢
        rw [get?_prefix_none hl (hst _)]
        exact this
    rintro _ s2 ⟨e2, hn2, hr2⟩
    refine Post.seq (Post.look (Q := fun l s' => s' = s2 ∧ l = copied env n _ c src' s2.content) ⟨rfl, rfl⟩) ?_
    rintro l s' ⟨rfl, rfl⟩
    rcases hr2 with rfl | ⟨hr2, hr3⟩
    · have hcont : s'.content = ({ I.value h with converted := s'.heap.rd I.converted } : Inst).content := by
        unfold Cells.content Inst.content HInst.value
        rw [e2.map0, e2.map1, e2.map2, e2.raw, e2.valid, hr]
      have key : ∀ (k : Ctx) (l1 l2 : List (Key × Val)), l1 ++ l2 = copied env n k c src' s'.content →
          KeyOk (I.value h) (.str fd.name) ((s'.heap.rd I.converted).update l1) := by
        intro k l1 l2 hl
        unfold copied at hl
        split at hl
        · rw [hcont] at hl
          exact pending_view hc hw hr hfd hn2 e2.pending hl
        · have : l1 = [] := (List.append_eq_nil_iff.1 hl).1
          subst this
          exact e2.pending
      exact Post.writeAt _ (e2.wr o (key _ _ [] (List.append_nil _))) fun l1 l2 hl => e2.wr o (key _ l1 l2 hl)
    · exact Post.writeAt _ (e2.other o hr3 hr2 _) fun l1 l2 hl => e2.other o hr3 hr2 _
  · exact Post.ofR (fun _ _ => e1) (fun _ _ => e1) e1

end

/-- Which outcome it is, if it is not an interrupt. -/
theorem Post.exact {m : Steps (List Bool) α} {s s0 : Cells} {r0 : Except Fault α} {Q : α → Cells → Prop} {E : Fault → Cells → Prop} (h : Post m s Q E) (hh : Honest m)
    (h0 : m s [] = (r0, s0, [])) :
    Post m s (fun a s' => Q a s' ∧ r0 = .ok a ∧ s' = s0) (fun f s' => E f s' ∧ (f ≠ .interrupt → r0 = .error f ∧ s' = s0)) := by
  intro o
  refine ⟨fun a s' o' e => ?_, fun f s' o' e => ⟨(h o).2 _ _ _ e, fun hf => ?_⟩⟩
  · have := hh _ _ _ _ _ e nofun
    rw [h0] at this
    injection this with a1 a2; injection a2 with a2
    exact ⟨(h o).1 _ _ _ e, a1, a2.symm⟩
  · have := hh _ _ _ _ _ e (by intro x; injection x with x; exact hf x)
    rw [h0] at this
    injection this with a1 a2; injection a2 with a2
    exact ⟨a1, a2.symm⟩

section
variable {h : DictHeap} {I : HInst} {k : Key} {new : Data}

theorem Mid.grow (o : HInst.Ok h I) {s : Cells} (m : Mid h I k new s) (d : Data) : Mid h I k new { s with heap := (s.heap.new d).1 } := by
  have h1 := m.lt1
  have h2 := m.lt1'
  have h3 := m.lt2
  have h4 := m.lt2'
  have h5 := m.len
  have hl := length_new s.heap d
  refine ⟨m.map0, ?_, ?_, ?_, ?_, ?_, ?_, ?_, ?_, ?_, ?_, ?_⟩ <;> simp only []
  · omega
  · rw [rd_new _ _ _ (Nat.lt_of_lt_of_le o.raw m.len)]; exact m.raw
  · rw [rd_new _ _ _ (Nat.lt_of_lt_of_le o.converted m.len)]; exact m.pending
  · rw [rd_new _ _ _ h1]; exact m.map1
  · rw [rd_new _ _ _ h2]; exact m.attr1
  · rw [rd_new _ _ _ h3]; exact m.map2
  · rw [rd_new _ _ _ h4]; exact m.attr2
  · omega
  · omega
  · omega
  · omega

/-- `self._data.converted = …` with an empty dict or with the old one. -/
theorem mid_putConverted {s : Cells} (m : Mid h I k new s) {a : Nat} (ha : a < s.heap.length) (hd : a = I.converted ∨ s.heap.rd a = []) :
    Post (Steps.putConverted a) s (fun _ s' => Mid h I k new s') (fun _ s' => Mid h I k new s') := by
  refine Post.seq (Post.store (Q := fun _ s' => Mid h I k new s') ?_ m) fun _ s' m' => Post.store ?_ m'
  · exact ⟨m.map0, m.len, m.raw, m.pending, m.map1, hd, m.map2, m.attr2, m.lt1, ha, m.lt2, m.lt2'⟩
  · exact ⟨m'.map0, m'.len, m'.raw, m'.pending, m'.attr1, m'.attr1, m'.map2, m'.attr2, m'.lt1', m'.lt1', m'.lt2, m'.lt2'⟩

theorem mid_last (o : HInst.Ok h I) {s : Cells} (m : Mid h I k new s) :
    Post (do let a ← Steps.alloc []; Steps.putConverted a) s (fun _ s' => Mid h I k new s') (fun _ s' => Mid h I k new s') := by
  refine Post.seq (Post.alloc (Q := fun a s' => a = s.heap.length ∧ s' = { s with heap := (s.heap.new []).1 }) ⟨rfl, rfl⟩ m) ?_
  rintro a s' ⟨rfl, rfl⟩
  refine mid_putConverted (m.grow o []) ?_ (.inr ?_)
  · simp only [length_new]; omega
  · exact rd_new_self s.heap []

theorem mid_newValid (o : HInst.Ok h I) {s : Cells} (e : Early h I k s) (d : Data) :
    Post (do let a ← Steps.alloc d; Steps.putValid a) s (fun _ s' => Mid h I k d s') (fun f s' => f = .interrupt ∧ Mid h I k d s') := by
  refine Post.seq (Post.alloc (Q := fun a s' => a = s.heap.length ∧ s' = { s with heap := (s.heap.new d).1 }) ⟨rfl, rfl⟩ ⟨rfl, e.mid o d⟩) ?_
  rintro a s' ⟨rfl, rfl⟩
  have m := (e.grow o d).mid o d
  have hl := length_new s.heap d
  have hd : (s.heap.new d).1.rd s.heap.length = d := rd_new_self s.heap d
  refine Post.seq (Post.store (Q := fun _ s' => Mid h I k d s') ?_ ⟨rfl, m⟩) fun _ s' m' => Post.store ?_ ⟨rfl, m'⟩
  · refine ⟨m.map0, m.len, m.raw, m.pending, m.map1, m.attr1, m.map2, .inr hd, m.lt1, m.lt1', m.lt2, ?_⟩
    simp only []; omega
  · exact ⟨m'.map0, m'.len, m'.raw, m'.pending, m'.map1, m'.attr1, m'.attr2, m'.attr2, m'.lt1, m'.lt1', m'.lt2', m'.lt2'⟩

end

section
variable {env : Env} {n : Nat} {c : ClassDef} {h : DictHeap} {I : HInst} {fd : FieldDef}

theorem Steps.assoc {α β : Type} (m : Steps (List Bool) α) (k : α → Steps (List Bool) Unit) (t : Steps (List Bool) β) : ((m >>= k) >>= fun _ => t) = (m >>= fun a => k a >>= fun _ => t) := by
  funext s o
  show Steps.bind (Steps.bind m k) _ s o = Steps.bind m (fun a => Steps.bind (k a) _) s o
  unfold Steps.bind
  generalize m s o = x
  obtain ⟨x, y, z⟩ := x
  cases x <;> rfl

theorem mid_validate (hc : c.WF) (o : HInst.Ok h I) (hw : (I.value h).WF) (hr : h.rd I.raw = []) (hfd : Plain c fd) (hna : NotAssigned c fd.name) (ctx : Ctx) :
    Post (Steps.validate env n c ctx) (Cells.of h I) (fun _ s' => Mid h I (.str fd.name) (instValidate env n c (I.value h) ctx).2.valid s')
      (fun _ s' => Mid h I (.str fd.name) (instValidate env n c (I.value h) ctx).2.valid s') := by
  have e0 : Early h I (.str fd.name) (Cells.of h I) := early_start hr
  unfold Steps.validate
  refine Post.seq (Post.look (Q := fun b s' => b = ((h.rd I.converted).isEmpty && ctx.partial_) ∧ s' = Cells.of h I) ⟨rfl, rfl⟩) ?_
  rintro b s ⟨rfl, rfl⟩
  split
  · exact Post.ret (e0.mid o _)
  · rename_i hskip
    generalize hnew : (instValidate env n c (I.value h) ctx).2.valid = new
    have hinst : ∀ r I1, instConvert env n c (I.value h) [] { ctx with validate := true, trusted := [] } = (r, I1) → I1.valid = (I.value h).valid ∧
        ((∀ d, r = .ok d → d = new) ∧ ∀ es p, r = .error (.data es p) → (I.value h).valid.update p = new) := by
      intro r I1 hi
      have hs := instConvert_state env n c (I.value h) [] { ctx with validate := true, trusted := [] }
      rw [hi] at hs
      refine ⟨hs.1, ?_, ?_⟩
      · rintro d rfl
        rw [← hnew]
        unfold instValidate
        rw [if_neg (show ¬ ((I.value h).converted.isEmpty && ctx.partial_) = true from hskip), hi]
        rfl
      · rintro es p rfl
        rw [← hnew]
        unfold instValidate
        rw [if_neg (show ¬ ((I.value h).converted.isEmpty && ctx.partial_) = true from hskip), hi]
        simp only [Inst.setValid]
        rw [hs.1]
    have hres := (HInst.convert_sim env n c o [] { ctx with validate := true, trusted := [] }).1
    generalize hcv : instConvert env n c (I.value h) [] { ctx with validate := true, trusted := [] } = q at hres hinst
    obtain ⟨r, I1⟩ := q
    obtain ⟨_, hok, hdata⟩ := hinst r I1 rfl
    simp only [] at hres
    have hconv := (early_convert (env := env) (n := n) hc o hw hr hfd hna [] { ctx with validate := true, trusted := [] }).exact (Honest.convert _ _ _ _ _)
      (Steps.convert_nil env n c [] { ctx with validate := true, trusted := [] } h I)
    rw [hres] at hconv
    unfold Steps.validateBody
    refine Post.tryFinally (Q' := fun _ s' => Mid h I (.str fd.name) new s') (E' := fun _ s' => Mid h I (.str fd.name) new s') ?_ (fun _ s' m => mid_last o m) fun _ s' m => mid_last o m
    refine Post.tryData (E' := fun f s' => Mid h I (.str fd.name) new s' ∧ ∀ es p, f = .exc (.data es p) → Early h I (.str fd.name) s' ∧ (I.value h).valid.update p = new) ?_ ?_ fun f s' _ x => x.1
    · refine Post.seq (hconv.mono (fun _ _ x => x) ?_) ?_
      · rintro f s' ⟨e, hf⟩
        refine ⟨e.mid o _, ?_⟩
        rintro es p rfl
        have := (hf nofun).1
        refine ⟨e, hdata es p ?_⟩
        cases r with
        | ok d => cases this
        | error x => injection this with this; injection this with this; rw [this]
      · rintro d s1 ⟨e, hd, _⟩
        have : r = .ok d := by
          cases r with
          | ok x => injection hd with hd; rw [hd]
          | error x => cases hd
        have := hok d this
        subst this
        refine (mid_newValid o e d).mono (fun _ _ x => x) ?_
        rintro f s' ⟨rfl, m⟩
        exact ⟨m, nofun⟩
    · rintro es p s1 ⟨_, hx⟩
      obtain ⟨e, hp⟩ := hx es p rfl
      refine Post.seq (Post.look (Q := fun v s' => v = (I.value h).valid ∧ s' = s1) ⟨by rw [e.attrs]; exact e.valid, rfl⟩) ?_
      rintro v s' ⟨rfl, rfl⟩
      rw [hp, ← Steps.assoc]
      exact Post.seq ((mid_newValid o e new).mono (fun _ _ x => x) fun _ _ x => x.2) fun _ s2 m => Post.raise m

theorem mid_serialize (hc : c.WF) (o : HInst.Ok h I) (hw : (I.value h).WF) (hr : h.rd I.raw = []) (hfd : Plain c fd) (hna : NotAssigned c fd.name) (ectx : ECtx) :
    Post (Steps.serialize env n c ectx) (Cells.of h I) (fun _ s' => Mid h I (.str fd.name) (instSerialize env n c (I.value h) ectx).2.valid s')
      (fun _ s' => Mid h I (.str fd.name) (instSerialize env n c (I.value h) ectx).2.valid s') := by
  have hnew : (instSerialize env n c (I.value h) ectx).2.valid = (instValidate env n c (I.value h) { defaults := true, validate := true }).2.valid := by
    unfold instSerialize
    simp only []
    generalize instValidate env n c (I.value h) { defaults := true, validate := true } = q
    obtain ⟨r, I1⟩ := q
    cases r with
    | ok u => simp only []; split <;> rfl
    | error e =>
      cases e with
      | data es p => simp only []; split <;> rfl
      | _ => rfl
  rw [hnew]
  have hv := mid_validate (env := env) (n := n) hc o hw hr hfd hna { defaults := true, validate := true }
  generalize (instValidate env n c (I.value h) { defaults := true, validate := true }).2.valid = new at hv
  unfold Steps.serialize
  refine Post.seq (Post.look (Q := fun a s' => a = I.converted ∧ s' = Cells.of h I) ⟨rfl, rfl⟩) ?_
  rintro a s ⟨rfl, rfl⟩
  refine Post.seq (Post.tryData hv (fun es p s' m => Post.ret m) fun _ _ _ m => m) ?_
  intro _ s1 m
  refine Post.seq (Post.look (Q := fun _ s' => s' = s1) rfl) ?_
  rintro content s1 rfl
  refine Post.seq (Post.ofR (Q := fun _ s' => s' = s1) (fun _ _ => rfl) (fun _ _ => m) m) ?_
  rintro d s1 rfl
  refine Post.seq (mid_putConverted m (Nat.lt_of_lt_of_le o.converted m.len) (.inl rfl)) fun _ s2 m2 => Post.ret m2

end
end Verif
