import Verif.Props.Instance3
import Verif.Props.Partial
import Verif.Props.Import3

/-!
# C02, C06, C07, C08 for `Model(raw)` with default arguments

`Model(raw)` is strict, fills in defaults, initialises the other fields to `None` and does not enforce `required`.
-/
namespace Verif

/-- `Model(raw)` is an import into an empty instance. -/
theorem instInit_new (env : Env) (n : Nat) (c : ClassDef) (raw : Data) (ctx : Ctx) (hv : ctx.validate = false) (ht : ctx.trusted = []) (hoo : ctx.oo = true) (hcv : ctx.conv = .imp) :
    instInit env n c raw [] false ctx = (runImport env n ctx c (.inst []) raw).map fun d => { converted := d } := by
  have hsrc : ({ valid := [] } : Inst).source raw = raw := by cases raw <;> simp [Inst.source]
  obtain ⟨cv, tr, mp, pt, st, ini, dfl, cvt, vd, oo, rc, ap⟩ := ctx
  simp only at hv ht hoo hcv
  subst hv ht hoo hcv
  have hcont : ({ valid := [] } : Inst).content = [] := rfl
  unfold instInit instConvert
  simp only [Bool.false_eq_true, if_false, hsrc, hcont, Inst.convertCtx, List.isEmpty_nil, Bool.not_true, Bool.or_false]
  cases runImport env n ⟨.imp, [], mp, pt, st, ini, dfl, cvt, false, true, rc, ap⟩ c (.inst []) raw with
  | error e => rfl
  | ok d => simp [Inst.afterConvert, Except.map]

theorem instInit_newCtx (env : Env) (n : Nat) (c : ClassDef) (raw : Data) :
    instInit env n c raw [] false newCtx = (runImport env n newCtx c (.inst []) raw).map fun d => { converted := d } :=
  instInit_new env n c raw newCtx rfl rfl rfl rfl

/-- **C02** for `Model(raw)`: a key that is no field name, serialized name or alias is refused (`DataError`, unless an unexpected exception was raised). -/
theorem C02_new_is_strict (env : Env) (n : Nat) (c : ClassDef) (raw : Data) (k : Key) (hk : k ∈ raw.keys) (hu : ¬ Accepted .empty c k) :
    (∃ es p, instInit env n c raw [] false newCtx = .error (.data es p) ∧ Dict.get? es k = some .rogue) ∨
    ∃ e, instInit env n c raw [] false newCtx = .error e ∧ ∀ es p, e ≠ .data es p := by
  rw [instInit_newCtx]
  by_cases hcr : Crashed (runImport env n newCtx c (.inst []) raw)
  · obtain ⟨e, h1, h2⟩ := hcr
    exact .inr ⟨e, by rw [h1]; rfl, h2⟩
  · obtain ⟨h1, h2⟩ := C02_strict_rejects_unknown env n newCtx c (.inst []) raw _ (.inl rfl) hcr
    obtain ⟨es, p, h3⟩ := h2 ⟨k, rfl, hk, hu⟩
    have h4 := (h1 k).2 ⟨rfl, hk, hu⟩
    rw [h3] at h4
    exact .inl ⟨es, p, by rw [h3]; rfl, h4⟩

/-- **C06** for `Model(raw)`: `required` is not enforced. -/
theorem C06_new_ignores_required (env : Env) (n : Nat) (c : ClassDef) (raw : Data) :
    instInit env n c raw [] false newCtx = instInit env.optional n c.optional raw [] false { newCtx with partial_ := false } := by
  rw [instInit_newCtx, instInit_new _ _ _ _ _ rfl rfl rfl rfl, (C06_partial_is_optional env n newCtx rfl c (.inst []) raw).1]

theorem map_ok {r : R Data} {f : Data → Inst} {I : Inst} (h : r.map f = .ok I) : ∃ d, r = .ok d ∧ f d = I := by
  cases r with
  | error e => cases h
  | ok d => injection h with h; exact ⟨d, rfl, h⟩

theorem new_field {env : Env} {n : Nat} {c : ClassDef} (hc : c.WF) {raw : Data} {I : Inst} (h : instInit env n c raw [] false newCtx = .ok I)
    {fd : FieldDef} (hfd : Plain c fd) :
    ∃ w, fieldConv env n (if fd.field.ty.isCompound then subCtx env newCtx fd.name else newCtx) true fd.field (fillValue newCtx fd (inputValue raw .empty fd)) = .ok w ∧
      getAttr c I fd.name = definedOr (some w) := by
  rw [instInit_newCtx] at h
  obtain ⟨d, h1, rfl⟩ := map_ok h
  have hb : importBody (fieldConv env n) env newCtx c raw [] = .ok d := h1
  rcases importBody_fields hc hb hfd.mem hfd.set with ⟨_, h2, _⟩ | ⟨w, h2, h3⟩
  · cases h2
  · refine ⟨w, h2, ?_⟩
    rw [getAttr_plain hc hfd, lookup_noraw rfl]
    show definedOr ((Dict.get? d (.str fd.name)).or none) = _
    rw [h3, Option.or_none]
    unfold definedOr
    cases hw : w.isUndef with
    | true => simp [hw, newCtx]
    | false => simp [hw]

/-- **C08** for `Model(raw)`: every plain field can be read afterwards, and a field that is absent from the input and has no default is `None`. -/
theorem C08_new_initialises (env : Env) (n : Nat) (c : ClassDef) (raw : Data) (I : Inst) (hc : c.WF) (h : instInit env n c raw [] false newCtx = .ok I)
    (fd : FieldDef) (hfd : Plain c fd) (ha : AllAbsent raw (ownNames .empty fd)) (hd : fd.field.o.default = .undef) :
    getAttr c I fd.name = .ok .none := by
  obtain ⟨w, h1, h2⟩ := new_field hc h hfd
  rw [inputValue_absent ha] at h1
  have hf : fillValue newCtx fd .undef = .none := by
    unfold fillValue
    simp [newCtx, Val.isUndef, hd]
  rw [hf] at h1
  cases n with
  | zero => cases h1
  | succ n =>
    have := fieldConvF_empty rfl h1
    rw [h2, this]
    rfl

/-- **C07** for `Model(raw)`: a field that is absent from the input and has a default reads as if the default had been given under its name. -/
theorem C07_new_fills_in (env : Env) (n : Nat) (c : ClassDef) (raw : Data) (I J : Inst) (hc : c.WF) (h : instInit env n c raw [] false newCtx = .ok I)
    (fd : FieldDef) (hfd : Plain c fd) (ha : AllAbsent raw (ownNames .empty fd)) (hd : fd.field.o.default ≠ .undef)
    (h' : instInit env n c (raw.set (.str fd.name) fd.field.o.default) [] false newCtx = .ok J) :
    getAttr c I fd.name = getAttr c J fd.name := by
  obtain ⟨w, h1, h2⟩ := new_field hc h hfd
  obtain ⟨w', h1', h2'⟩ := new_field hc h' hfd
  have hu : fd.field.o.default.isUndef = false := by
    cases hh : fd.field.o.default.isUndef with
    | false => rfl
    | true => exact absurd ((Val.isUndef_iff _).1 hh) hd
  rw [inputValue_absent ha] at h1
  have hi : inputValue (raw.set (.str fd.name) fd.field.o.default) .empty fd = fd.field.o.default := by
    unfold inputValue rawValue
    simp [Dict.get?_set_self, hu]
  rw [hi] at h1'
  have hf : fillValue newCtx fd .undef = fillValue newCtx fd fd.field.o.default := by
    unfold fillValue
    simp [newCtx, Val.isUndef]
  rw [hf, h1'] at h1
  injection h1 with h1
  rw [h2, h2', h1]

/-! ## The hypotheses are met -/
section
open Samples

/-- A missing required field is accepted and reads as `None`. -/
example : ∃ I, instInit env 5 order [] [] false newCtx = .ok I ∧ getAttr order I "id" = .ok .none := ⟨_, rfl, rfl⟩

/-- A missing field with a default, and an unknown key. -/
example : ∃ I J, instInit env 5 order [(.str "id", .int 1)] [] false newCtx = .ok I ∧ instInit env 5 order [(.str "id", .int 1), (.str "note", .str "-")] [] false newCtx = .ok J ∧
    getAttr order I "note" = .ok (.str "-") ∧ getAttr order J "note" = .ok (.str "-") := ⟨_, _, rfl, rfl, rfl, rfl⟩
example : ∃ es p, instInit env 5 order [(.str "id", .int 1), (.str "zzz", .int 1)] [] false newCtx = .error (.data es p) := ⟨_, _, rfl⟩

end
end Verif
