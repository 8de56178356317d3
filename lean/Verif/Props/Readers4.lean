import Verif.Props.Readers3

/-!
# C108: fields read by other threads while a call runs

While one thread runs `m.name = v`, `del m.name`, `m.validate()`, `m.import_data()` or `m.serialize()`, other threads read fields of `m`, step by step, at any moments of the call.
-/
namespace Verif

open DictHeap

/-! ## Specification -/

/-- What a field of the instance `V` may contain while the call `x` runs: what it contains before; what it contains afterwards; in `import_data(validate=True)`, what was imported; in `serialize`, what its
validation leaves as validated. -/
inductive During (env : Env) (n : Nat) (c : ClassDef) (V : Inst) (k : Key) : Op → Option Val → Prop
  | before {x : Op} : During env n c V k x (V.lookup k)
  | after {x : Op} : During env n c V k x ((x.run env n c V).lookup k)
  | imported {raw : Data} {ctx : Ctx} {d : Data} {w : Val} (hv : ctx.validate = true) (h : (instConvert env n c V raw { ctx with trusted := c.view V.content }).1 = .ok d)
      (hw : Dict.get? d k = some w) : During env n c V k (.importData raw ctx) (some w)
  | validated {ectx : ECtx} : During env n c V k (.serialize ectx) (Dict.get? ((Op.serialize ectx).run env n c V).valid k)

/-! ## Proofs -/

section
variable {env : Env} {n : Nat} {c : ClassDef} {h : DictHeap} {I : HInst} {fd : FieldDef}

theorem instValidate_noConverted (V : Inst) (ctx : Ctx) : (instValidate env n c V ctx).2.converted = [] := by
  unfold instValidate
  split
  · rename_i hs
    simp only [Bool.and_eq_true, List.isEmpty_iff] at hs
    exact hs.1
  · generalize instConvert env n c V [] { ctx with validate := true, trusted := [] } = q
    obtain ⟨r, I1⟩ := q
    cases r with
    | ok d => rfl
    | error e => cases e <;> rfl

theorem instValidate_noRaw {V : Inst} (hr : V.raw = []) (ctx : Ctx) : (instValidate env n c V ctx).2.raw = [] := by
  have hs := instConvert_state env n c V [] { ctx with validate := true, trusted := [] }
  unfold instValidate
  split
  · exact hr
  · generalize instConvert env n c V [] { ctx with validate := true, trusted := [] } = q at hs
    obtain ⟨r, I1⟩ := q
    cases r with
    | ok d => exact hs.2
    | error e => cases e <;> exact hs.2

theorem instValidate_lookup {V : Inst} (hr : V.raw = []) (ctx : Ctx) (k : Key) : (instValidate env n c V ctx).2.lookup k = Dict.get? (instValidate env n c V ctx).2.valid k := by
  rw [lookup_noraw (instValidate_noRaw hr ctx), instValidate_noConverted]; rfl

theorem shows_validated {old new : Data} {k : Key} {C : Data → Prop} {P : Option Val → Prop} {f : Film} {s : Cells} (hv : Validated I old new C {} f s) (hC : ∀ d, C d → Reads P old k d)
    (hnew : P (Dict.get? new k)) : Shows k P f s := by
  obtain ⟨M, E, f1, hf1, hf2, b⟩ := hv
  obtain ⟨l1, e1, h1⟩ := hf1
  obtain ⟨l2, e2, h2⟩ := hf2
  refine shows_of_cut (A := Front I old C) (B := Back I old new M E C) ⟨l1, l2, by rw [e2, e1]; rfl, h1, h2⟩ b fun film hf => ?_
  exact safe_of_cut hf hC hnew

theorem film_import (hc : c.WF) (hm : NodupValidators c) (o : HInst.Ok h I) (hw : (I.value h).WF) (hr : h.rd I.raw = []) (hfd : Plain c fd) (hna : NotAssigned c fd.name) (raw : Data) (ctx : Ctx) :
    Shot (Steps.importData env n c raw ctx) (Cells.of h I) {}
      (fun _ s' f => Shows (.str fd.name) (During env n c (I.value h) (.str fd.name) (.importData raw ctx)) f s')
      (fun _ s' f => Shows (.str fd.name) (During env n c (I.value h) (.str fd.name) (.importData raw ctx)) f s') := by
  have hraw : (I.value h).raw = [] := hr
  unfold Steps.importData
  refine Shot.seq (Shot.look (Q := fun t s' f => t = c.view (I.value h).content ∧ s' = Cells.of h I ∧ f = {}) ⟨rfl, rfl, rfl⟩) ?_
  rintro t s _ ⟨rfl, rfl, rfl⟩
  have hsim := HInst.convert_sim env n c o raw { ctx with trusted := c.view (I.value h).content }
  have hcw := instConvert_wf (env := env) (n := n) (I := I.value h) (raw := raw) (ctx := { ctx with trusted := c.view (I.value h).content }) hc hm (view_nodup hc _) hw
  have hcs := instConvert_state env n c (I.value h) raw { ctx with trusted := c.view (I.value h).content }
  have hconv := (film_convert (env := env) (n := n) hc o hw hr hfd hna raw { ctx with trusted := c.view (I.value h).content } {}).exact (Same.convert _ _ _ _ _) (fun _ _ _ x => x.2)
      (Steps.convert_nil env n c raw { ctx with trusted := c.view (I.value h).content } h I)
  generalize hP : During env n c (I.value h) (.str fd.name) (.importData raw ctx) = P
  have hbefore : P ((I.value h).lookup (.str fd.name)) := hP ▸ .before
  have hkey : ∀ d, KeyOk (I.value h) (.str fd.name) d → Reads P (h.rd I.valid) (.str fd.name) d := fun d hd => keyOk_reads hraw hbefore hd
  generalize hcv : I.convert env n c h raw { ctx with trusted := c.view (I.value h).content } = q at hsim hconv
  generalize hci : instConvert env n c (I.value h) raw { ctx with trusted := c.view (I.value h).content } = qi at hsim hcw hcs
  obtain ⟨r, h1, J⟩ := q
  obtain ⟨ri, V1⟩ := qi
  obtain ⟨hrr, ⟨o1, _, hv1⟩, hJc⟩ := hsim
  simp only [] at hrr o1 hv1 hJc hconv hcw hcs
  subst hrr
  refine Shot.seq (Q' := fun d s' f => r = .ok d ∧ Early h I (.str fd.name) s' ∧ s' = Cells.of h1 J ∧ Adds (Early h I (.str fd.name)) {} f) (hconv.mono ?_ ?_) ?_
  · rintro d s' f ⟨⟨e, hf⟩, hd, hs⟩
    refine ⟨?_, e, hs, hf⟩
    cases r with
    | ok x => injection hd with hd; rw [hd]
    | error x => cases hd
  · rintro x s' f ⟨⟨⟨e, hf⟩, _⟩, _⟩
    exact shows_front (hf.weaken fun _ x => x.front.weaken hkey) (e.front.weaken hkey)
  rintro d s' f1 ⟨rfl, e, rfl, hf1⟩
  have hJ : J = I := e.attrs
  subst hJ
  refine Shot.seq (Shot.look (Q := fun a s' f => a = J.converted ∧ s' = Cells.of h1 J ∧ f = f1) ⟨rfl, rfl, rfl⟩) ?_
  rintro a s' f1 ⟨rfl, rfl, rfl⟩
  have hdn : Dict.Nodup d := hcw.2
  have hr1 : V1.raw = [] := hcs.2
  have hval : V1.valid = (J.value h).valid := hcs.1
  -- the dict while it is updated
  have hwr : ∀ l, HInst.Ok (h1.wr J.converted ((h1.rd J.converted).update l)) J ∧ J.value (h1.wr J.converted ((h1.rd J.converted).update l)) = { V1 with converted := V1.converted.update l } := by
    intro l
    have := HInst.wr_converted o1 ((h1.rd J.converted).update l)
    refine ⟨this.1, ?_⟩
    rw [this.2.2, hv1, ← hv1]; rfl
  have himp : ∀ w, Dict.get? d (.str fd.name) = some w → P (some w) := by
    intro w hg
    cases hvd : ctx.validate with
    | true => exact hP ▸ .imported hvd (by rw [hci]) hg
    | false =>
      have hafter : ((Op.importData raw ctx).run env n c (J.value h)).lookup (.str fd.name) = some w := by
        show (instImport env n c (J.value h) raw ctx).2.lookup _ = _
        unfold instImport
        rw [hci]
        simp only [hvd, Bool.false_eq_true, if_false]
        rw [lookup_noraw (by exact hr1)]
        simp only []
        rw [Dict.get?_update _ _ hdn, hg]
        rfl
      rw [← hafter, ← hP]
      exact .after
  have hpend : ∀ l1 l2 : Data, l1 ++ l2 = d → Reads P (h.rd J.valid) (.str fd.name) ((h1.rd J.converted).update l1) := by
    intro l1 l2 hl
    rcases get?_prefix (d := h1.rd J.converted) (k := Key.str fd.name) hl hdn with he | ⟨w, hg, he⟩
    · have := hkey _ e.pending
      unfold Reads at this ⊢
      rw [he]; exact this
    · unfold Reads
      rw [he]; exact himp w hg
  have hfront : ∀ l1 l2 : Data, l1 ++ l2 = d → Front J (h.rd J.valid) (Reads P (h.rd J.valid) (.str fd.name)) (Cells.of (h1.wr J.converted ((h1.rd J.converted).update l1)) J) := by
    intro l1 l2 hl
    refine ⟨rfl, rfl, rfl, ?_, ?_, ?_⟩
    · have : (J.value (h1.wr J.converted ((h1.rd J.converted).update l1))).raw = [] := by rw [(hwr l1).2]; exact hr1
      exact this
    · have : (J.value (h1.wr J.converted ((h1.rd J.converted).update l1))).valid = (J.value h).valid := by rw [(hwr l1).2]; exact hval
      exact this
    · show Reads _ _ _ ((h1.wr J.converted _).rd J.converted)
      rw [rd_wr _ _ _ _ o1.converted, if_pos rfl]
      exact hpend l1 l2 hl
  have hf1' : Adds (Front J (h.rd J.valid) (Reads P (h.rd J.valid) (.str fd.name))) {} f1 := hf1.weaken fun _ x => x.front.weaken hkey
  refine Shot.seq (Q' := fun _ s' f => s' = Cells.of (h1.wr J.converted ((h1.rd J.converted).update d)) J ∧ Adds (Front J (h.rd J.valid) (Reads P (h.rd J.valid) (.str fd.name))) {} f)
    (Shot.writeAt _ hf1' (fun l1 l2 hl => hfront l1 l2 hl) fun f hf => ⟨rfl, hf⟩) ?_
  rintro _ s' f2 ⟨rfl, hf2⟩
  cases hvd : ctx.validate with
  | false => exact Shot.ret (shows_front hf2 (hfront d [] (List.append_nil _)))
  | true =>
    simp only [if_true]
    have hw2 : (J.value (h1.wr J.converted ((h1.rd J.converted).update d))).WF := by
      rw [(hwr d).2]
      exact ⟨hcw.1.raw, Dict.nodup_update hcw.1.converted _, hcw.1.valid, hcw.1.stale⟩
    have hr2 : (h1.wr J.converted ((h1.rd J.converted).update d)).rd J.raw = [] := (hfront d [] (List.append_nil _)).raw
    have hold : (h1.wr J.converted ((h1.rd J.converted).update d)).rd J.valid = h.rd J.valid := (hfront d [] (List.append_nil _)).valid
    have hfin : (instImport env n c (J.value h) raw ctx).2 = (instValidate env n c (J.value (h1.wr J.converted ((h1.rd J.converted).update d))) { convert := false }).2 := by
      unfold instImport
      rw [hci, (hwr d).2]
      simp only [hvd, if_true]
    have hnew : P (Dict.get? (instValidate env n c (J.value (h1.wr J.converted ((h1.rd J.converted).update d))) { convert := false }).2.valid (.str fd.name)) := by
      rw [← instValidate_lookup (show (J.value (h1.wr J.converted ((h1.rd J.converted).update d))).raw = [] from hr2), ← hfin, ← hP]
      exact .after
    have hP2 : P ((J.value (h1.wr J.converted ((h1.rd J.converted).update d))).lookup (.str fd.name)) := by
      rw [lookup_noraw (show (J.value (h1.wr J.converted ((h1.rd J.converted).update d))).raw = [] from hr2)]
      have := (hfront d [] (List.append_nil _)).pending
      unfold Reads at this
      rw [← hold] at this
      exact this
    have hkey2 : ∀ x, KeyOk (J.value (h1.wr J.converted ((h1.rd J.converted).update d))) (.str fd.name) x → Reads P (h.rd J.valid) (.str fd.name) x := by
      intro x hx
      have := keyOk_reads (show (J.value (h1.wr J.converted ((h1.rd J.converted).update d))).raw = [] from hr2) hP2 hx
      rw [← hold]; exact this
    have fin : ∀ {s' : Cells} {f : Film}, Validated J ((h1.wr J.converted ((h1.rd J.converted).update d)).rd J.valid)
        (instValidate env n c (J.value (h1.wr J.converted ((h1.rd J.converted).update d))) { convert := false }).2.valid
        (KeyOk (J.value (h1.wr J.converted ((h1.rd J.converted).update d))) (.str fd.name)) f2 f s' → Shows (.str fd.name) P f s' := by
      rintro s' f ⟨M, E, f3, hf3, hf4, b⟩
      rw [hold] at hf3 hf4 b
      refine shows_validated (C := Reads P (h.rd J.valid) (.str fd.name)) ⟨M, E, f3, hf2.trans (hf3.weaken fun _ x => x.weaken hkey2), hf4.weaken fun _ x => x.weaken hkey2, b.weaken hkey2⟩ (fun _ x => x) hnew
    exact (film_validate (env := env) (n := n) hc (hwr d).1 hw2 hr2 hfd hna { convert := false } f2).mono (fun _ _ _ x => fin x) fun _ _ _ x => fin x

/-- The film of a call, for readers of a field. -/
theorem film_safe (hc : c.WF) (hm : NodupValidators c) (o : HInst.Ok h I) (hw : (I.value h).WF) (hr : h.rd I.raw = []) (hfd : Plain c fd) (hna : NotAssigned c fd.name) (x : Op) :
    Safe ((Cells.of h I).film env n c x) (.str fd.name) (During env n c (I.value h) (.str fd.name) x) := by
  have hraw : (I.value h).raw = [] := hr
  have key : ∀ {m : Steps Film Unit}, Shot m (Cells.of h I) {} (fun _ s' f => Shows (.str fd.name) (During env n c (I.value h) (.str fd.name) x) f s')
      (fun _ s' f => Shows (.str fd.name) (During env n c (I.value h) (.str fd.name) x) f s') →
      Safe (((m >>= fun _ => Steps.tick) (Cells.of h I) {}).2.2.frames ++ [((m >>= fun _ => Steps.tick) (Cells.of h I) {}).2.1]) (.str fd.name) (During env n c (I.value h) (.str fd.name) x) := by
    intro m hs
    generalize hr : m (Cells.of h I) {} = r
    obtain ⟨a, s', f⟩ := r
    cases a with
    | ok a =>
      rw [Steps.bind_ok hr]
      have := hs.1 _ _ _ hr [s', s'] (by simp)
      show Safe ((f.frames ++ [s']) ++ [s']) _ _
      rw [List.append_assoc]
      exact this
    | error e =>
      rw [Steps.bind_error hr]
      exact hs.2 _ _ _ hr [s'] (by simp)
  have hkey : ∀ (y : Op) d, KeyOk (I.value h) (.str fd.name) d → Reads (During env n c (I.value h) (.str fd.name) y) (h.rd I.valid) (.str fd.name) d := fun y d hd => keyOk_reads hraw .before hd
  unfold Cells.film Steps.op
  refine key ?_
  cases x with
  | set name v => exact film_set o hr hna name v .before .after
  | del name => exact film_del o hw hr _ name .before .after
  | validate ctx =>
    have hnew : During env n c (I.value h) (.str fd.name) (.validate ctx) (Dict.get? (instValidate env n c (I.value h) ctx).2.valid (.str fd.name)) := by
      rw [← instValidate_lookup hraw]; exact .after
    exact (film_validate (env := env) (n := n) hc o hw hr hfd hna ctx {}).mono (fun _ _ _ x => shows_validated x (hkey _) hnew) fun _ _ _ x => shows_validated x (hkey _) hnew
  | importData raw ctx => exact film_import hc hm o hw hr hfd hna raw ctx
  | serialize ectx =>
    have hnew : During env n c (I.value h) (.str fd.name) (.serialize ectx) (Dict.get? (instSerialize env n c (I.value h) ectx).2.valid (.str fd.name)) := .validated
    refine Shot.seq (Q' := fun _ s' f => Shows (.str fd.name) (During env n c (I.value h) (.str fd.name) (.serialize ectx)) f s') ?_ fun _ s' f hs => Shot.ret hs
    exact (film_serialize (env := env) (n := n) hc o hw hr hfd hna ectx {}).mono (fun _ _ _ x => shows_validated x (hkey _) hnew) fun _ _ _ x => shows_validated x (hkey _) hnew

end

/-! ## Theorems -/

/-- **C108** (what is read).  While a call runs on an instance that was created without `lazy=True`, a thread that reads a field that is not calculated and that no setter assigns gets what it would get
if the field contained one of the contents in `During`; only if it has a value at some time and none at another, the read may also end with a `KeyError`. -/
theorem C108_reads (env : Env) (n : Nat) (c : ClassDef) (hc : c.WF) (hm : NodupValidators c) (h : DictHeap) (I : HInst) (hI : HInst.Ok h I) (hr : Reachable env n c true (I.value h)) (x : Op)
    (fd : FieldDef) (hfd : Plain c fd) (hna : NotAssigned c fd.name) (moment : Nat → Cells) (hmo : Concurrent ((Cells.of h I).film env n c x) moment) :
    ∃ r, During env n c (I.value h) (.str fd.name) x r ∧ (readBy moment fd.name = definedOr r ∨
      (r = none ∧ readBy moment fd.name = .error (.other "KeyError") ∧ ∃ v, During env n c (I.value h) (.str fd.name) x (some v))) :=
  (film_safe hc hm hI (hr.wf hc hm) hr.raw hfd hna x).read hmo

/-- **C108** (no spurious error).  If the field has a value before the call, after it, and (for `import_data(validate=True)` and `serialize`) in between, every read returns one of these. -/
theorem C108_no_error (env : Env) (n : Nat) (c : ClassDef) (hc : c.WF) (hm : NodupValidators c) (h : DictHeap) (I : HInst) (hI : HInst.Ok h I) (hr : Reachable env n c true (I.value h)) (x : Op)
    (fd : FieldDef) (hfd : Plain c fd) (hna : NotAssigned c fd.name) (moment : Nat → Cells) (hmo : Concurrent ((Cells.of h I).film env n c x) moment)
    (hd : ∀ r, During env n c (I.value h) (.str fd.name) x r → ∃ v, r = some v ∧ v.isUndef = false) :
    ∃ v, readBy moment fd.name = .ok v ∧ During env n c (I.value h) (.str fd.name) x (some v) := by
  obtain ⟨r, hr, e⟩ := C108_reads env n c hc hm h I hI hr x fd hfd hna moment hmo
  obtain ⟨v, rfl, hv⟩ := hd r hr
  rcases e with e | ⟨e, _⟩
  · refine ⟨v, ?_, hr⟩
    rw [e]
    show (if v.isUndef then _ else _) = _
    rw [hv]; rfl
  · cases e

/-- **C108** (assignment, deletion and validation).  While a field is assigned or deleted, and during `validate()`, a read gives what it gives before the call or what it gives after it (or a `KeyError`, if
it has no value at one of the two times). -/
theorem C108_before_or_after (env : Env) (n : Nat) (c : ClassDef) (hc : c.WF) (hm : NodupValidators c) (h : DictHeap) (I : HInst) (hI : HInst.Ok h I) (hr : Reachable env n c true (I.value h)) (x : Op)
    (hx : (∃ name v, x = .set name v) ∨ (∃ name, x = .del name) ∨ ∃ ctx, x = .validate ctx)
    (fd : FieldDef) (hfd : Plain c fd) (hna : NotAssigned c fd.name) (moment : Nat → Cells) (hmo : Concurrent ((Cells.of h I).film env n c x) moment) :
    readBy moment fd.name = getAttr c (I.value h) fd.name ∨ readBy moment fd.name = getAttr c (x.run env n c (I.value h)) fd.name ∨
      (readBy moment fd.name = .error (.other "KeyError") ∧ ((I.value h).lookup (.str fd.name) = none ↔ (x.run env n c (I.value h)).lookup (.str fd.name) ≠ none)) := by
  have hga : ∀ V : Inst, getAttr c V fd.name = definedOr (V.lookup (.str fd.name)) := fun V => getAttr_plain hc hfd V
  have two : ∀ r, During env n c (I.value h) (.str fd.name) x r → r = (I.value h).lookup (.str fd.name) ∨ r = (x.run env n c (I.value h)).lookup (.str fd.name) := by
    intro r hr
    cases hr with
    | before => exact .inl rfl
    | after => exact .inr rfl
    | imported => rcases hx with ⟨_, _, e⟩ | ⟨_, e⟩ | ⟨_, e⟩ <;> cases e
    | validated => rcases hx with ⟨_, _, e⟩ | ⟨_, e⟩ | ⟨_, e⟩ <;> cases e
  obtain ⟨r, hr, e⟩ := C108_reads env n c hc hm h I hI hr x fd hfd hna moment hmo
  rcases e with e | ⟨rfl, e, v, hv⟩
  · rcases two r hr with rfl | rfl
    · left; rw [e, hga]
    · right; left; rw [e, hga]
  · right; right
    refine ⟨e, ?_⟩
    rcases two _ hr with a | a <;> rcases two _ hv with b | b
    · rw [← a] at b; cases b
    · rw [← a, ← b]; simp
    · rw [← a, ← b]; simp
    · rw [← a] at b; cases b

/-- **C108** (the other fields).  While a field is assigned or deleted, every other field reads as if nothing happened. -/
theorem C108_other_fields (env : Env) (n : Nat) (c : ClassDef) (hc : c.WF) (hm : NodupValidators c) (h : DictHeap) (I : HInst) (hI : HInst.Ok h I) (hr : Reachable env n c true (I.value h)) (x : Op)
    (name : String) (hx : (∃ v, x = .set name v) ∨ x = .del name)
    (fd : FieldDef) (hfd : Plain c fd) (hna : NotAssigned c fd.name) (hne : name ≠ fd.name) (moment : Nat → Cells) (hmo : Concurrent ((Cells.of h I).film env n c x) moment) :
    readBy moment fd.name = getAttr c (I.value h) fd.name := by
  have hraw := hr.raw
  have hw := hr.wf hc hm
  have hk : Key.str name ≠ Key.str fd.name := fun e => hne (by injection e)
  have same : (x.run env n c (I.value h)).lookup (.str fd.name) = (I.value h).lookup (.str fd.name) := by
    rcases hx with ⟨v, rfl⟩ | rfl
    · show (setAttr env n c (I.value h) name v).2.lookup _ = _
      have := reads_set (env := env) (n := n) hI hraw hna name v
      unfold setAttr
      cases hf : c.field? name with
      | none => rfl
      | some g =>
        simp only []
        cases hg : g.fget with
        | some f0 =>
          simp only []
          cases hs : g.fset with
          | none => rfl
          | some f =>
            simp only []
            cases hp : preSet env n g.field v with
            | error e => rfl
            | ok w =>
              simp only []
              cases ha : f w with
              | error e => rfl
              | ok asg =>
                simp only []
                have hno : Key.str fd.name ∉ Dict.keys asg := hna g (List.mem_of_find?_eq_some hf) f hs _ _ ha
                rw [lookup_noraw (by exact hraw), lookup_noraw hraw]
                simp only []
                rw [Dict.get?_update_none _ _ hno]
        | none =>
          simp only []
          cases hp : preSet env n g.field v with
          | error e => rfl
          | ok w =>
            simp only []
            rw [lookup_noraw (by exact hraw), lookup_noraw hraw]
            simp only []
            rw [Dict.get?_set_ne _ _ (by exact hk)]
    · show (delAttr c (I.value h) name).2.lookup _ = _
      unfold delAttr
      cases hf : c.field? name with
      | none => rfl
      | some g =>
        simp only []
        split
        · rfl
        · unfold Inst.delete
          simp only []
          split
          · unfold Inst.lookup
            simp only []
            rw [Dict.get?_erase_ne _ hk, Dict.get?_erase_ne _ hk]
            cases (I.value h).stale.isSome with
            | true => rfl
            | false => simp only [Bool.false_eq_true, if_false]; rw [Dict.get?_erase_ne _ hk]
          · rfl
  rcases C108_before_or_after env n c hc hm h I hI hr x (by rcases hx with ⟨v, rfl⟩ | rfl <;> simp) fd hfd hna moment hmo with e | e | ⟨_, e⟩
  · exact e
  · rw [e, getAttr_plain hc hfd, getAttr_plain hc hfd, same]
  · rw [same] at e
    by_cases hn : (I.value h).lookup (.str fd.name) = none
    · exact absurd hn (e.1 hn)
    · exact absurd (e.2 hn) hn

/-! ## The hypotheses are met, and what other threads may see -/

/-- A reader that does its first `a` steps at one moment and the others at a later one. -/
theorem concurrent_two {film : List Cells} {p q a : Nat} (hpq : p ≤ q) {x y : Cells} (hx : film[p]? = some x) (hy : film[q]? = some y) : Concurrent film (fun i => if i < a then x else y) := by
  refine ⟨fun i => if i < a then p else q, fun i j hij => ?_, fun i => ?_⟩
  · simp only []
    split <;> split <;> omega
  · simp only []
    split
    · exact hx
    · exact hy

namespace Samples

/-- The cells at a moment of the film of a call. -/
def sceneOf (h : DictHeap) (I : HInst) (x : Op) (p : Nat) : Cells := ((Cells.of h I).film env 5 badge x).getD p (Cells.of h I)

-- `m.validate()` while `m.qty = 5` is pending: read partly at the beginning, partly after the exchange of the layers
example : ((Cells.of cellsP cellsI).film env 5 badge (.validate {})).length = 11 := rfl
example := C108_reads env 5 badge badge_wf badge_tidy.nodup cellsP cellsI cellsP_ok badgeP_reachable (.validate {}) _ badge_qty badge_assigns _
  (concurrent_two (a := 9) (p := 2) (q := 10) (by decide) (x := sceneOf cellsP cellsI (.validate {}) 2) (y := sceneOf cellsP cellsI (.validate {}) 10) rfl rfl)
example := C108_before_or_after env 5 badge badge_wf badge_tidy.nodup cellsN cellsI cellsN_ok badgeN_reachable (.validate {}) (.inr (.inr ⟨_, rfl⟩)) _ badge_qty badge_assigns _
  (concurrent_two (a := 9) (p := 2) (q := 9) (by decide) (x := sceneOf cellsN cellsI (.validate {}) 2) (y := sceneOf cellsN cellsI (.validate {}) 9) rfl rfl)
example := C108_other_fields env 5 badge badge_wf badge_tidy.nodup cellsP cellsI cellsP_ok badgeP_reachable (.set "tag" (.str "x")) "tag" (.inl ⟨_, rfl⟩) _ badge_qty badge_assigns (by decide) _
  (concurrent_two (a := 3) (p := 0) (q := 1) (by decide) (x := sceneOf cellsP cellsI (.set "tag" (.str "x")) 0) (y := sceneOf cellsP cellsI (.set "tag" (.str "x")) 1) rfl rfl)
-- `m.qty = 6`: old and new value are defined
example : ∃ v, readBy (fun i => if i < 7 then sceneOf cellsP cellsI (.set "qty" (.int 6)) 0 else sceneOf cellsP cellsI (.set "qty" (.int 6)) 2) "qty" = .ok v ∧
    During env 5 badge badgeP (.str "qty") (.set "qty" (.int 6)) (some v) :=
  C108_no_error env 5 badge badge_wf badge_tidy.nodup cellsP cellsI cellsP_ok badgeP_reachable (.set "qty" (.int 6)) _ badge_qty badge_assigns _
    (concurrent_two (a := 7) (p := 0) (q := 2) (by decide) (x := sceneOf cellsP cellsI (.set "qty" (.int 6)) 0) (y := sceneOf cellsP cellsI (.set "qty" (.int 6)) 2) rfl rfl)
    (fun r hr => by
      cases hr with
      | before => exact ⟨.int 5, rfl, rfl⟩
      | after => exact ⟨.int 6, rfl, rfl⟩)

/-- The dicts of a new `Badge({'qty': 1, 'label': 'a'})`. -/
def cellsF : DictHeap := [[], badgeI.converted, badgeI.valid]
theorem cellsF_ok : HInst.Ok cellsF lazyI := by constructor <;> decide

/-- **C108** (`KeyError`).  One thread deletes `m.qty`, another reads it: the key is there when `in` looks for it, and gone when `[]` does; `m.qty` raises a `KeyError`, which is not an `AttributeError`. -/
theorem C108_counterexample_key_error :
    Concurrent ((Cells.of cellsF lazyI).film env 5 badge (.del "qty")) (fun i => if i < 6 then sceneOf cellsF lazyI (.del "qty") 0 else sceneOf cellsF lazyI (.del "qty") 1) ∧
    readBy (fun i => if i < 6 then sceneOf cellsF lazyI (.del "qty") 0 else sceneOf cellsF lazyI (.del "qty") 1) "qty" = .error (.other "KeyError") :=
  ⟨concurrent_two (p := 0) (q := 1) (by decide) rfl rfl, rfl⟩

/-- **C108** (two fields).  Between the two fields there is no such promise: during `m.import_data({'qty': 8, 'label': 'z'})` there is a moment at which `m.qty` is the new value and `m.tag` the old one. -/
theorem C108_counterexample_torn :
    (sceneOf cellsF lazyI (.importData [(.str "qty", .int 8), (.str "label", .str "z")] {}) 3).lookup (.str "qty") = some (.int 8) ∧
    (sceneOf cellsF lazyI (.importData [(.str "qty", .int 8), (.str "label", .str "z")] {}) 3).lookup (.str "tag") = some (.str "a") ∧
    ((Cells.of cellsF lazyI).after env 5 badge (.importData [(.str "qty", .int 8), (.str "label", .str "z")] {}) []).lookup (.str "tag") = some (.str "z") := ⟨rfl, rfl, rfl⟩

/-- **C108** (lazy instances).  An instance created with `lazy=True` has a value of `qty` before and after `m.validate()`, but there is a moment at which reading it raises an `UndefinedValueError`. -/
theorem C108_counterexample_lazy :
    (Cells.of cellsL lazyI).lookup (.str "qty") = some (.int 4) ∧ ((Cells.of cellsL lazyI).after env 5 badge (.validate {}) []).lookup (.str "qty") = some (.int 4) ∧
    readBy (fun _ => sceneOf cellsL lazyI (.validate {}) 3) "qty" = .error (.other "UndefinedValueError") := ⟨rfl, rfl, rfl⟩

end Samples
end Verif
