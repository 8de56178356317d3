import Verif.Props.Readers

/-! # C108: fields read by other threads: the methods -/
namespace Verif

open DictHeap

theorem DictHeap.rd_out (h : DictHeap) {a : Nat} (ha : h.length ≤ a) : h.rd a = [] := by
  unfold rd
  rw [List.getElem?_eq_none ha]; rfl

section
variable {h : DictHeap} {I : HInst} {k : Key}

theorem Early.front {s : Cells} (e : Early h I k s) : Front I (h.rd I.valid) (KeyOk (I.value h) k) s := ⟨e.map0, e.map1, e.map2, e.raw, e.valid, e.pending⟩

end

section
variable {env : Env} {n : Nat} {c : ClassDef} {h : DictHeap} {I : HInst} {fd : FieldDef}

/-- `_convert` on an eager instance. -/
theorem film_convert (hc : c.WF) (o : HInst.Ok h I) (hw : (I.value h).WF) (hr : h.rd I.raw = []) (hfd : Plain c fd) (hna : NotAssigned c fd.name) (raw : Data) (ctx : Ctx) (f0 : Film) :
    Shot (Steps.convert env n c raw ctx) (Cells.of h I) f0 (fun _ s' f => Early h I (.str fd.name) s' ∧ Adds (Early h I (.str fd.name)) f0 f)
      (fun x s' f => (Early h I (.str fd.name) s' ∧ Adds (Early h I (.str fd.name)) f0 f) ∧ x ≠ .interrupt) := by
  have e0 : Early h I (.str fd.name) (Cells.of h I) := early_start hr
  unfold Steps.convert
  refine Shot.seq (Shot.look (Q := fun _ s' f => s' = Cells.of h I ∧ f = f0) ⟨rfl, rfl⟩) ?_
  rintro p s f0 ⟨rfl, rfl⟩
  refine Shot.seq (Q' := fun r s' f => (Early h I (.str fd.name) s' ∧ s'.heap.rd I.converted = h.rd I.converted ∧ (r = I.converted ∨ (h.length ≤ r ∧ r < s'.heap.length))) ∧ Adds (Early h I (.str fd.name)) f0 f) ?_ ?_
  · unfold Steps.given
    split
    · exact Shot.look ⟨⟨e0, rfl, .inl rfl⟩, Adds.refl _⟩
    · refine Shot.alloc ⟨⟨e0.grow o _, ?_, .inr ⟨Nat.le_refl _, ?_⟩⟩, (Adds.refl _).snoc e0⟩
      · exact rd_new _ _ _ o.converted
      · show h.length < (h.new raw).1.length
        rw [length_new]; omega
  rintro r s1 f1 ⟨⟨e1, hcv, hr1⟩, ha1⟩
  refine Shot.seq (Q' := fun r' s' f => r' = r ∧ s' = s1 ∧ f = f1) ?_ ?_
  · unfold Steps.takePending
    refine Shot.seq (Shot.look (Q := fun d s' f => d = [] ∧ s' = s1 ∧ f = f1) ⟨by rw [e1.attrs]; exact e1.raw, rfl, rfl⟩) ?_
    rintro d s' f1 ⟨rfl, rfl, rfl⟩
    exact Shot.ret ⟨rfl, rfl, rfl⟩
  rintro r' s' f1 ⟨rfl, rfl, rfl⟩
  refine Shot.seq (Shot.look (Q := fun _ s'' f => s'' = s' ∧ f = f1) ⟨rfl, rfl⟩) ?_
  rintro content s1 f1 ⟨rfl, rfl⟩
  refine Shot.seq (Shot.look (Q := fun _ s'' f => s'' = s1 ∧ f = f1) ⟨rfl, rfl⟩) ?_
  rintro src s1 f1 ⟨rfl, rfl⟩
  split
  · refine Shot.seq (Q' := fun _ s' f => Early h I (.str fd.name) s' ∧ Adds (Early h I (.str fd.name)) f0 f) ?_
      fun _ s' f e => Shot.ofR (fun _ _ => ⟨e.1, e.2.snoc e.1⟩) fun _ _ => ⟨⟨e.1, e.2.snoc e.1⟩, nofun⟩
    unfold Steps.mutate
    refine Shot.seq (Shot.look (Q := fun _ s'' f => s'' = s1 ∧ f = f1) ⟨rfl, rfl⟩) ?_
    rintro src' s1 f1 ⟨rfl, rfl⟩
    refine Shot.seq (Shot.look (Q := fun a s'' f => a = I.converted ∧ s'' = s1 ∧ f = f1) ⟨by rw [e1.attrs], rfl, rfl⟩) ?_
    rintro a s1 f1 ⟨rfl, rfl, rfl⟩
    have hst : ∀ k : Ctx, Key.str fd.name ∉ Dict.keys (setterSteps (fieldConv env n) k src' c.settable) := fun k =>
      steps_keep fun x hx => hna x (List.mem_filter.1 hx).1
    refine Shot.seq (Q' := fun _ s' f => (Early h I (.str fd.name) s' ∧ (s'.heap.rd I.converted).Nodup ∧ (r' = I.converted ∨ (h.length ≤ r' ∧ r' < s'.heap.length))) ∧ Adds (Early h I (.str fd.name)) f0 f) ?_ ?_
    · have hlt : I.converted < s1.heap.length := Nat.lt_of_lt_of_le o.converted e1.len
      refine Shot.writeAt _ ha1 (fun l1 l2 hl => e1.wr o ?_) fun f hf => ⟨⟨e1.wr o ?_, ?_, ?_⟩, hf⟩
      · have := e1.pending
        unfold KeyOk at this ⊢
        rw [get?_prefix_none hl (hst _)]
        exact this
      · have := e1.pending
        unfold KeyOk at this ⊢
        rw [get?_prefix_none (l2 := []) (List.append_nil _) (hst _)]
        exact this
      · simp only []
        rw [rd_wr _ _ _ _ hlt, if_pos rfl]
        exact Dict.nodup_update (by rw [hcv]; exact hw.converted) _
      · simp only [length_wr]; exact hr1
    rintro _ s2 f2 ⟨⟨e2, hn2, hr2⟩, ha2⟩
    refine Shot.seq (Shot.look (Q := fun l s' f => s' = s2 ∧ l = copied env n _ c src' s2.content ∧ f = f2) ⟨rfl, rfl, rfl⟩) ?_
    rintro l s' f2 ⟨rfl, rfl, rfl⟩
    rcases hr2 with rfl | ⟨hr2, hr3⟩
    · have hcont : s'.content = ({ I.value h with converted := s'.heap.rd I.converted } : Inst).content := by
        unfold Cells.content Inst.content HInst.value
        rw [e2.map0, e2.map1, e2.map2, e2.raw, e2.valid, hr]
      have key : ∀ (k : Ctx) (l1 l2 : List (Key × Val)), l1 ++ l2 = copied env n k c src' s'.content →
          KeyOk (I.value h) (.str fd.name) ((s'.heap.rd I.converted).update l1) := by
        intro k l1 l2 hl
        unfold copied at hl
        split at hl
        · rw [hcont] at hl
          exact pending_view hc hw hr hfd hn2 e2.pending hl
        · have : l1 = [] := (List.append_eq_nil_iff.1 hl).1
          subst this
          exact e2.pending
      exact Shot.writeAt _ ha2 (fun l1 l2 hl => e2.wr o (key _ l1 l2 hl)) fun f hf => ⟨e2.wr o (key _ _ [] (List.append_nil _)), hf⟩
    · exact Shot.writeAt _ ha2 (fun l1 l2 hl => e2.other o hr3 hr2 _) fun f hf => ⟨e2.other o hr3 hr2 _, hf⟩
  · exact Shot.ofR (fun _ _ => ⟨e1, ha1.snoc e1⟩) fun _ _ => ⟨⟨e1, ha1.snoc e1⟩, nofun⟩

end

/-- The film of a validation: first `Front`, then `Back`; the cells at the end are `Back`, too. -/
def Validated (I : HInst) (old new : Data) (C : Data → Prop) (f0 f : Film) (s : Cells) : Prop :=
  ∃ (M E : Nat) (f1 : Film), Adds (Front I old C) f0 f1 ∧ Adds (Back I old new M E C) f1 f ∧ Back I old new M E C s

section
variable {h : DictHeap} {I : HInst} {k : Key}

/-- The `finally` block. -/
theorem film_last (o : HInst.Ok h I) {old new : Data} {C : Data → Prop} {M : Nat} {s : Cells} {f0 f : Film} (hl : h.length ≤ s.heap.length) (hM : M < s.heap.length)
    (b : Back I old new M s.heap.length C s) (hf : Adds (Front I old C) f0 f) {E : Fault → Cells → Film → Prop} :
    Shot (do let a ← Steps.alloc []; Steps.putConverted a) s f (fun _ s' f' => Validated I old new C f0 f' s') E := by
  have h1 := o.raw
  have h2 := o.valid
  have h3 := o.converted
  refine Shot.seq (Shot.alloc (Q := fun a s' f' => a = s.heap.length ∧ s' = { s with heap := (s.heap.new []).1 } ∧ f' = f.add s) ⟨rfl, rfl, rfl⟩) ?_
  rintro a s' _ ⟨rfl, rfl, rfl⟩
  have b1 : Back I old new M s.heap.length C { s with heap := (s.heap.new []).1 } := by
    refine ⟨b.map0, b.map1, b.map2, ?_, ?_, ?_, ?_, ?_⟩ <;> simp only []
    · rw [rd_new _ _ _ (by omega)]; exact b.raw
    · rw [rd_new _ _ _ (by omega)]; exact b.valid
    · rw [rd_new _ _ _ hM]; exact b.now
    · exact rd_new_self s.heap []
    · rw [rd_new _ _ _ (by omega)]; exact b.pending
  unfold Steps.putConverted
  have b2 : Back I old new M s.heap.length C { s with heap := (s.heap.new []).1, attrs := { s.attrs with converted := s.heap.length } } :=
    ⟨b1.map0, b1.map1, b1.map2, b1.raw, b1.valid, b1.now, b1.gone, b1.pending⟩
  refine Shot.seq (Shot.store (Q := fun _ s' f' => s' = { s with heap := (s.heap.new []).1, attrs := { s.attrs with converted := s.heap.length } } ∧ Adds (Back I old new M s.heap.length C) f f')
    ⟨rfl, ((Adds.refl _).snoc b).snoc b1⟩) ?_
  rintro _ s' f2 ⟨rfl, hf2⟩
  exact Shot.store ⟨M, s.heap.length, f, hf, hf2.snoc b2, ⟨b2.map0, .inr rfl, b2.map2, b2.raw, b2.valid, b2.now, b2.gone, b2.pending⟩⟩

/-- The layer of validated data is exchanged. -/
theorem film_newValid (o : HInst.Ok h I) {s : Cells} {f0 f : Film} (e : Early h I k s) (hf : Adds (Early h I k) f0 f) (d : Data) {E : Fault → Cells → Film → Prop} :
    Shot (do let a ← Steps.alloc d; Steps.putValid a) s f
      (fun _ s' f' => (Adds (Front I (h.rd I.valid) (KeyOk (I.value h) k)) f0 f' ∧ h.length ≤ s'.heap.length) ∧ ∃ M, M < s'.heap.length ∧ Back I (h.rd I.valid) d M s'.heap.length (KeyOk (I.value h) k) s') E := by
  have h1 := o.raw
  have h2 := o.valid
  have h3 := o.converted
  have h4 := e.len
  have hl := length_new s.heap d
  have hff : Adds (Front I (h.rd I.valid) (KeyOk (I.value h) k)) f0 f := hf.weaken fun _ x => x.front
  refine Shot.seq (Shot.alloc (Q := fun a s' f' => a = s.heap.length ∧ s' = { s with heap := (s.heap.new d).1 } ∧ f' = f.add s) ⟨rfl, rfl, rfl⟩) ?_
  rintro a s' _ ⟨rfl, rfl, rfl⟩
  have e1 := (e.grow o d).front
  have hd : (s.heap.new d).1.rd s.heap.length = d := rd_new_self s.heap d
  have e2 : Front I (h.rd I.valid) (KeyOk (I.value h) k) { s with heap := (s.heap.new d).1, attrs := { s.attrs with valid := s.heap.length } } := ⟨e1.map0, e1.map1, e1.map2, e1.raw, e1.valid, e1.pending⟩
  unfold Steps.putValid
  refine Shot.seq (Shot.store (Q := fun _ s' f' => s' = { s with heap := (s.heap.new d).1, attrs := { s.attrs with valid := s.heap.length } } ∧ f' = (f.add s).add { s with heap := (s.heap.new d).1 })
    ⟨rfl, rfl⟩) ?_
  rintro _ s' _ ⟨rfl, rfl⟩
  refine Shot.store ⟨⟨((hff.snoc e.front).snoc e1).snoc e2, ?_⟩, s.heap.length, ?_, e1.map0, .inl e1.map1, rfl, e1.raw, e1.valid, hd, rd_out _ (Nat.le_refl _), e1.pending⟩
  · simp only []; omega
  · simp only []; omega

end

section
variable {env : Env} {n : Nat} {c : ClassDef} {h : DictHeap} {I : HInst} {fd : FieldDef}

theorem film_validate (hc : c.WF) (o : HInst.Ok h I) (hw : (I.value h).WF) (hr : h.rd I.raw = []) (hfd : Plain c fd) (hna : NotAssigned c fd.name) (ctx : Ctx) (f0 : Film) :
    Shot (Steps.validate env n c ctx) (Cells.of h I) f0
      (fun _ s' f => Validated I (h.rd I.valid) (instValidate env n c (I.value h) ctx).2.valid (KeyOk (I.value h) (.str fd.name)) f0 f s')
      (fun _ s' f => Validated I (h.rd I.valid) (instValidate env n c (I.value h) ctx).2.valid (KeyOk (I.value h) (.str fd.name)) f0 f s') := by
  have e0 : Early h I (.str fd.name) (Cells.of h I) := early_start hr
  -- nothing is exchanged
  have still : ∀ {s : Cells}, Early h I (.str fd.name) s → Back I (h.rd I.valid) (h.rd I.valid) I.valid s.heap.length (KeyOk (I.value h) (.str fd.name)) s := fun {s} e =>
    ⟨e.map0, .inl e.map1, e.map2, e.raw, e.valid, e.valid, rd_out _ (Nat.le_refl _), e.pending⟩
  unfold Steps.validate
  refine Shot.seq (Shot.look (Q := fun b s' f => b = ((h.rd I.converted).isEmpty && ctx.partial_) ∧ s' = Cells.of h I ∧ f = f0) ⟨rfl, rfl, rfl⟩) ?_
  rintro b s f0 ⟨rfl, rfl, rfl⟩
  split
  · rename_i hskip
    have : (instValidate env n c (I.value h) ctx).2.valid = h.rd I.valid := by
      unfold instValidate
      rw [if_pos (show ((I.value h).converted.isEmpty && ctx.partial_) = true from hskip)]
      rfl
    rw [this]
    exact Shot.ret ⟨_, _, f0, Adds.refl _, Adds.refl _, still e0⟩
  · rename_i hskip
    generalize hnew : (instValidate env n c (I.value h) ctx).2.valid = new
    have hinst : ∀ r I1, instConvert env n c (I.value h) [] { ctx with validate := true, trusted := [] } = (r, I1) → 
        ((∀ d, r = .ok d → d = new) ∧ (∀ es p, r = .error (.data es p) → (I.value h).valid.update p = new) ∧ ∀ e, r = .error e → (∀ es p, e ≠ .data es p) → new = h.rd I.valid) := by
      intro r I1 hi
      have hs := instConvert_state env n c (I.value h) [] { ctx with validate := true, trusted := [] }
      rw [hi] at hs
      refine ⟨?_, ?_, ?_⟩
      · rintro d rfl
        rw [← hnew]
        unfold instValidate
        rw [if_neg (show ¬ ((I.value h).converted.isEmpty && ctx.partial_) = true from hskip), hi]
        rfl
      · rintro es p rfl
        rw [← hnew]
        unfold instValidate
        rw [if_neg (show ¬ ((I.value h).converted.isEmpty && ctx.partial_) = true from hskip), hi]
        simp only [Inst.setValid]
        rw [hs.1]
      · rintro e rfl hne
        rw [← hnew]
        unfold instValidate
        rw [if_neg (show ¬ ((I.value h).converted.isEmpty && ctx.partial_) = true from hskip), hi]
        have hv : I1.valid = h.rd I.valid := hs.1
        cases e with
        | data es p => exact absurd rfl (hne es p)
        | _ => exact hv
    have hres := (HInst.convert_sim env n c o [] { ctx with validate := true, trusted := [] }).1
    generalize hcv : instConvert env n c (I.value h) [] { ctx with validate := true, trusted := [] } = q at hres hinst
    obtain ⟨r, I1⟩ := q
    obtain ⟨hok, hdata, hother⟩ := hinst r I1 rfl
    simp only [] at hres
    have hconv := (film_convert (env := env) (n := n) hc o hw hr hfd hna [] { ctx with validate := true, trusted := [] } f0).exact (Same.convert _ _ _ _ _) (fun _ _ _ x => x.2)
      (Steps.convert_nil env n c [] { ctx with validate := true, trusted := [] } h I)
    rw [hres] at hconv
    have hlift : ∀ {x : Exc}, Steps.lift r = .error (.exc x) → r = .error x := by
      intro x hx
      cases r with
      | ok d => cases hx
      | error y => injection hx with hx; injection hx with hx; rw [hx]
    unfold Steps.validateBody
    refine Shot.tryFinally (Q' := fun _ s' f => (Adds (Front I (h.rd I.valid) (KeyOk (I.value h) (.str fd.name))) f0 f ∧ h.length ≤ s'.heap.length) ∧
        ∃ M, M < s'.heap.length ∧ Back I (h.rd I.valid) new M s'.heap.length (KeyOk (I.value h) (.str fd.name)) s')
      (E' := fun _ s' f => (Adds (Front I (h.rd I.valid) (KeyOk (I.value h) (.str fd.name))) f0 f ∧ h.length ≤ s'.heap.length) ∧
        ∃ M, M < s'.heap.length ∧ Back I (h.rd I.valid) new M s'.heap.length (KeyOk (I.value h) (.str fd.name)) s')
      ?_ (fun _ s' f ⟨⟨hf, hl⟩, M, hM, hb⟩ => film_last o hl hM hb hf) fun _ s' f ⟨⟨hf, hl⟩, M, hM, hb⟩ => film_last o hl hM hb hf
    refine Shot.tryData (E' := fun x s' f => ∃ e, x = .exc e ∧ r = .error e ∧ Early h I (.str fd.name) s' ∧ Adds (Early h I (.str fd.name)) f0 f) ?_ ?_ ?_
    · refine Shot.seq (hconv.mono (fun _ _ _ x => x) ?_) ?_
      · rintro x s' f ⟨⟨⟨e, hf⟩, hx⟩, hr2, _⟩
        cases x with
        | interrupt => exact absurd rfl hx
        | exc x => exact ⟨x, rfl, hlift hr2, e, hf⟩
      · rintro d s1 f ⟨⟨e, hf⟩, hd, _⟩
        have : r = .ok d := by
          cases r with
          | ok x => injection hd with hd; rw [hd]
          | error x => cases hd
        have := hok d this
        subst this
        exact film_newValid o e hf d
    · rintro es p s1 f ⟨_, hx, hr2, e, hf⟩
      injection hx with hx
      subst hx
      refine Shot.seq (Shot.look (Q := fun v s' f' => v = (I.value h).valid ∧ s' = s1 ∧ f' = f) ⟨by rw [e.attrs]; exact e.valid, rfl, rfl⟩) ?_
      rintro v s' f ⟨rfl, rfl, rfl⟩
      rw [hdata es p hr2]
      have hassoc : (do let a ← Steps.alloc new; Steps.putValid a; Steps.throw (.exc (.data es p)) : Steps Film Unit) =
          ((do let a ← Steps.alloc new; Steps.putValid a) >>= fun _ => Steps.throw (.exc (.data es p))) := by
        funext s o
        show Steps.bind _ _ s o = Steps.bind (Steps.bind _ _) _ s o
        unfold Steps.bind
        generalize Steps.alloc new s o = x
        obtain ⟨x, y, z⟩ := x
        cases x <;> rfl
      rw [hassoc]
      exact Shot.seq (film_newValid o e hf new) fun _ s2 f2 x => Shot.raise x
    · rintro x s' f hne ⟨e, rfl, hr2, e1, hf⟩
      have hn := hother e hr2 (fun es p he => hne es p (by rw [he]))
      rw [hn]
      refine ⟨⟨hf.weaken fun _ x => x.front, e1.len⟩, I.valid, Nat.lt_of_lt_of_le o.valid e1.len, still e1⟩

theorem film_serialize (hc : c.WF) (o : HInst.Ok h I) (hw : (I.value h).WF) (hr : h.rd I.raw = []) (hfd : Plain c fd) (hna : NotAssigned c fd.name) (ectx : ECtx) (f0 : Film) :
    Shot (Steps.serialize env n c ectx) (Cells.of h I) f0
      (fun _ s' f => Validated I (h.rd I.valid) (instSerialize env n c (I.value h) ectx).2.valid (KeyOk (I.value h) (.str fd.name)) f0 f s')
      (fun _ s' f => Validated I (h.rd I.valid) (instSerialize env n c (I.value h) ectx).2.valid (KeyOk (I.value h) (.str fd.name)) f0 f s') := by
  have hnew : (instSerialize env n c (I.value h) ectx).2.valid = (instValidate env n c (I.value h) { defaults := true, validate := true }).2.valid := by
    unfold instSerialize
    simp only []
    generalize instValidate env n c (I.value h) { defaults := true, validate := true } = q
    obtain ⟨r, I1⟩ := q
    cases r with
    | ok u => simp only []; split <;> rfl
    | error e =>
      cases e with
      | data es p => simp only []; split <;> rfl
      | _ => rfl
  rw [hnew]
  have hv := film_validate (env := env) (n := n) hc o hw hr hfd hna { defaults := true, validate := true } f0
  generalize (instValidate env n c (I.value h) { defaults := true, validate := true }).2.valid = new at hv
  unfold Steps.serialize
  refine Shot.seq (Shot.look (Q := fun a s' f => a = I.converted ∧ s' = Cells.of h I ∧ f = f0) ⟨rfl, rfl, rfl⟩) ?_
  rintro a s f0 ⟨rfl, rfl, rfl⟩
  refine Shot.seq (Shot.tryData hv (fun es p s' f m => Shot.ret m) fun _ _ _ _ m => m) ?_
  rintro _ s1 f1 ⟨M, E, f', hf, hf1, b⟩
  refine Shot.seq (Shot.look (Q := fun _ s' f => s' = s1 ∧ f = f1) ⟨rfl, rfl⟩) ?_
  rintro content s1 f1 ⟨rfl, rfl⟩
  refine Shot.seq (Shot.ofR (Q := fun _ s' f => s' = s1 ∧ f = f1.add s1) (fun _ _ => ⟨rfl, rfl⟩) (fun _ _ => ⟨M, E, f', hf, hf1.snoc b, b⟩)) ?_
  rintro d s1 _ ⟨rfl, rfl⟩
  have b1 : Back I (h.rd I.valid) new M E (KeyOk (I.value h) (.str fd.name)) { s1 with attrs := { s1.attrs with converted := I.converted } } :=
    ⟨b.map0, b.map1, b.map2, b.raw, b.valid, b.now, b.gone, b.pending⟩
  unfold Steps.putConverted
  refine Shot.seq (Q' := fun _ s' f => Validated I (h.rd I.valid) new (KeyOk (I.value h) (.str fd.name)) f0 f s') ?_ fun _ s2 f2 x => Shot.ret x
  refine Shot.seq (Shot.store (Q := fun _ s' f => s' = { s1 with attrs := { s1.attrs with converted := I.converted } } ∧ f = (f1.add s1).add s1) ⟨rfl, rfl⟩) ?_
  rintro _ s' _ ⟨rfl, rfl⟩
  exact Shot.store ⟨M, E, f', hf, ((hf1.snoc b).snoc b).snoc b1, b1.map0, .inl rfl, b1.map2, b1.raw, b1.valid, b1.now, b1.gone, b1.pending⟩

end
end Verif
