import Verif.Props.Interrupt4

/-!
# C107: calls that are interrupted

`m.name = v`, `del m.name`, `m.validate()`, `m.import_data()` and `m.serialize()` may be ended by a `KeyboardInterrupt` — or any exception that a signal handler raises — at every store into the
instance and at every other step, in `except` and `finally` blocks too, and more than once.  What a field reads afterwards, what the layer of validated data is, how the
instance recovers, and what is lost.
-/
namespace Verif

open DictHeap

/-! ## Specification -/

/-- The call runs a validation. -/
def Op.Validates : Op → Prop
  | .validate _ | .serialize _ => True
  | .importData _ ctx => ctx.validate = true
  | .set .. | .del _ => False

/-- What a field may read after the call `x` on an instance `V` was interrupted: what it read before; what it would read had the call not been interrupted; and, if the call validates, its
last validated value, the one which the call would leave as validated, and for `import_data` the value the call imported. -/
inductive MayRead (env : Env) (n : Nat) (c : ClassDef) (V : Inst) (k : Key) : Op → Option Val → Prop
  | before {x : Op} : MayRead env n c V k x (V.lookup k)
  | after {x : Op} : MayRead env n c V k x ((x.run env n c V).lookup k)
  | wasValid {x : Op} (h : x.Validates) : MayRead env n c V k x (Dict.get? V.valid k)
  | isValid {x : Op} (h : x.Validates) : MayRead env n c V k x (Dict.get? (x.run env n c V).valid k)
  | imported {raw : Data} {ctx : Ctx} {d : Data} {w : Val} (hv : ctx.validate = true) (h : (instConvert env n c V raw { ctx with trusted := c.view V.content }).1 = .ok d)
      (hw : Dict.get? d k = some w) : MayRead env n c V k (.importData raw ctx) (some w)

/-- Where a value in the layer of validated data comes from: it was there at first; it is what the field's own validation returned, and the field's `validate_<field>` method did not refuse it; it
is the field's default. -/
inductive Trusted (env : Env) (c : ClassDef) (base : Data → Prop) (fd : FieldDef) (v : Val) : Prop
  | first {d : Data} (hb : base d) (h : Dict.get? d (.str fd.name) = some v)
  | validated {ctx : Ctx} {x : Val} {mv d : Data} (hc : ctx.conv = .val) (h : Answers env ctx fd x (.ok v)) (hd : Dict.get? d (.str fd.name) = some v) (hr : ∀ t, ¬ Rejects c mv ctx.app d fd t)
  | default (h : v = fd.field.o.default)

/-! ## Theorems -/

theorem after_holds {env : Env} {n : Nat} {c : ClassDef} {s : Cells} {x : Op} {P : Cells → Prop} (h : Post (Steps.op env n c x) s (fun _ s' => P s') (fun _ s' => P s')) (o : List Bool) :
    P (s.after env n c x o) := by
  unfold Cells.after
  have := h o
  generalize hr : Steps.op env n c x s o = r at *
  obtain ⟨a, s', o'⟩ := r
  cases a with
  | ok a => exact this.1 _ _ _ rfl
  | error f => exact this.2 _ _ _ rfl

/-- **C107** (no interrupt).  The steps of a call that is not interrupted lead to the state that `Core/Instance` gives. -/
theorem C107_uninterrupted (env : Env) (n : Nat) (c : ClassDef) (h : DictHeap) (I : HInst) (hI : HInst.Ok h I) (x : Op) :
    ∃ h' J, (Cells.of h I).after env n c x [] = Cells.of h' J ∧ HInst.Ok h' J ∧ J.value h' = x.run env n c (I.value h) := by
  have s := HInst.run_sim env n c hI x
  exact ⟨_, _, Steps.op_nil env n c x h I, s.ok, s.value⟩

/-- **C107** (an interrupt is not lost).  If a call returns, or raises an exception of its own, then no interrupt came during it: it left the instance as it does without interrupts. -/
theorem C107_returns (env : Env) (n : Nat) (c : ClassDef) (s : Cells) (x : Op) (o : List Bool) (h : (Steps.op env n c x s o).1 ≠ .error .interrupt) :
    s.after env n c x o = s.after env n c x [] ∧ (Steps.op env n c x s o).1 = (Steps.op env n c x s ([] : List Bool)).1 := by
  unfold Cells.after
  generalize hr : Steps.op env n c x s o = r at *
  obtain ⟨a, s', o'⟩ := r
  rw [Honest.op env n c x _ _ _ _ _ hr h]
  exact ⟨rfl, rfl⟩

/-- **C107** (fields).  After a call on an instance that was created without `lazy=True`, however it was interrupted, a field that is not calculated and that no setter assigns reads
one of the values in `MayRead`. -/
theorem C107_fields (env : Env) (n : Nat) (c : ClassDef) (hc : c.WF) (hm : NodupValidators c) (h : DictHeap) (I : HInst) (hI : HInst.Ok h I) (hr : Reachable env n c true (I.value h)) (x : Op)
    (o : List Bool) (fd : FieldDef) (hfd : Plain c fd) (hna : NotAssigned c fd.name) :
    MayRead env n c (I.value h) (.str fd.name) x (((Cells.of h I).after env n c x o).lookup (.str fd.name)) := by
  have hw := hr.wf hc hm
  have hraw : h.rd I.raw = [] := hr.raw
  refine after_holds (P := fun s' => MayRead env n c (I.value h) (.str fd.name) x (s'.lookup (.str fd.name))) ?_ o
  unfold Steps.op
  refine Post.seq (Q' := fun _ s' => MayRead env n c (I.value h) (.str fd.name) x (s'.lookup (.str fd.name))) ?_ fun _ s' hs => Post.tick hs hs
  have two : ∀ {s' : Cells} {x : Op}, s'.lookup (.str fd.name) = (I.value h).lookup (.str fd.name) ∨ s'.lookup (.str fd.name) = (x.run env n c (I.value h)).lookup (.str fd.name) →
      MayRead env n c (I.value h) (.str fd.name) x (s'.lookup (.str fd.name)) := by
    rintro s' x (e | e) <;> rw [e]
    · exact .before
    · exact .after
  have three : ∀ {s' : Cells} {x : Op}, x.Validates → Mid h I (.str fd.name) (x.run env n c (I.value h)).valid s' → MayRead env n c (I.value h) (.str fd.name) x (s'.lookup (.str fd.name)) := by
    intro s' x hx m
    rcases m.reads with e | e | e <;> rw [e]
    · exact .before
    · exact .wasValid hx
    · exact .isValid hx
  cases x with
  | set name v => exact (reads_set hI hraw hna name v).mono (fun _ _ e => two e) fun _ _ e => two e
  | del name => exact (reads_del hI hw hraw _ name).mono (fun _ _ e => two e) fun _ _ e => two e
  | validate ctx => exact (mid_validate hc hI hw hraw hfd hna ctx).mono (fun _ _ e => three (by trivial) e) fun _ _ e => three (by trivial) e
  | serialize ectx =>
    refine Post.seq (Q' := fun _ s' => MayRead env n c (I.value h) (.str fd.name) (.serialize ectx) (s'.lookup (.str fd.name))) ?_ fun _ s' hs => Post.ret hs
    exact (mid_serialize hc hI hw hraw hfd hna ectx).mono (fun _ _ e => three (by trivial) e) fun _ _ e => three (by trivial) e
  | importData raw ctx =>
    have four : ∀ s' : Cells, ImportReads env n c (I.value h) raw ctx (.str fd.name) (s'.lookup (.str fd.name)) →
        MayRead env n c (I.value h) (.str fd.name) (.importData raw ctx) (s'.lookup (.str fd.name)) := by
      rintro s' (e | ⟨d, w, hd, hg, e⟩ | ⟨hv, e | e⟩) <;> rw [e]
      · exact .before
      · cases hv : ctx.validate with
        | true => exact .imported hv hd hg
        | false =>
          have hafter : ((Op.importData raw ctx).run env n c (I.value h)).lookup (.str fd.name) = some w := by
            show (instImport env n c (I.value h) raw ctx).2.lookup _ = _
            have hcs := instConvert_state env n c (I.value h) raw { ctx with trusted := c.view (I.value h).content }
            have hcw := instConvert_wf (env := env) (n := n) (I := I.value h) (raw := raw) (ctx := { ctx with trusted := c.view (I.value h).content }) hc hm (view_nodup hc _) hw
            unfold instImport
            generalize hq : instConvert env n c (I.value h) raw { ctx with trusted := c.view (I.value h).content } = q at *
            obtain ⟨r, V1⟩ := q
            simp only [] at hd
            subst hd
            simp only [hv, Bool.false_eq_true, if_false]
            rw [lookup_noraw (by exact hcs.2)]
            simp only []
            have hdn : Dict.Nodup d := hcw.2
            rw [Dict.get?_update _ _ hdn, hg]
            rfl
          rw [← hafter]
          exact .after
      · exact .wasValid hv
      · exact .isValid hv
    exact (reads_import hc hm hI hw hraw hfd hna raw ctx).mono (fun _ s' e => four s' e) fun _ s' e => four s' e

/-- The instance and what is in its valid layer. -/
def ValidBase (h : DictHeap) (I : HInst) (d : Data) : Prop := d = h.rd I.valid ∨ d = h.rd I.stale

theorem sound_start {env : Env} {n : Nat} {c : ClassDef} {h : DictHeap} {I : HInst} (o : HInst.Ok h I) : Sound (Legit env n c (ValidBase h I)) (fun _ => False) (Cells.of h I) := by
  refine ⟨?_, ⟨o.valid, .base (.inl rfl)⟩, ⟨o.valid, .base (.inl rfl)⟩, ⟨o.stale, .base (.inr rfl)⟩⟩
  rintro r (e | e | e | e | e)
  · subst e; exact ⟨o.raw, o.rv, o.rv, o.rs⟩
  · subst e; exact ⟨o.raw, o.rv, o.rv, o.rs⟩
  · subst e; exact ⟨o.converted, o.cv, o.cv, o.cs⟩
  · subst e; exact ⟨o.converted, o.cv, o.cv, o.cs⟩
  · cases e

/-- **C107** (the valid layer is never torn).  After any history of calls, each interrupted in any way, the layer of validated data — the one that is read and the one that `ModelDict` holds — is
what completed validations and deletions made of it (`Legit`): it never holds part of a validation's output, nor anything that was not validated. -/
theorem C107_valid_layer (env : Env) (n : Nat) (c : ClassDef) (h : DictHeap) (I : HInst) (hI : HInst.Ok h I) (l : List (Op × List Bool)) :
    Legit env n c (ValidBase h I) (((Cells.of h I).history env n c l).heap.rd ((Cells.of h I).history env n c l).map2) ∧
    Legit env n c (ValidBase h I) (((Cells.of h I).history env n c l).heap.rd ((Cells.of h I).history env n c l).attrs.valid) :=
  have := keeps_history l (sound_start (env := env) (n := n) (c := c) hI)
  ⟨this.map2.2, this.valid.2⟩

theorem legit_nodup {env : Env} {n : Nat} {c : ClassDef} (hc : c.WF) (hm : TidyMethods c) {base : Data → Prop} (hb : ∀ d, base d → d.Nodup) {d : Data} (hd : Legit env n c base d) : d.Nodup := by
  induction hd with
  | base h => exact hb _ h
  | @validated k content src d hk h =>
    have := runValidate_nodup (env := env) (n := n) (ctx := k) (c := c) (mu := .inst content) (raw := src) hc hm.nodup (by rw [hk.2.2]; exact nodup_nil)
    rw [h] at this; exact this
  | completed hk hd h ih => exact Dict.nodup_update ih _
  | deleted hd ih => exact Dict.nodup_erase ih _

/-- **C107** (validated values).  Every value in such a layer, of a field that is not a model and has no setter and is not rewritten by the method of another field, was there at first, or passed the
field's validation, or is the field's default. -/
theorem C107_valid_values (env : Env) (n : Nat) (c : ClassDef) (hc : c.WF) (hx : DistinctExt c) (hm : TidyMethods c) (base : Data → Prop) (hb : ∀ d, base d → d.Nodup) (d : Data)
    (hd : Legit env n c base d) (fd : FieldDef) (hfd : fd ∈ c.fields) (hset : fd.fset = none) (hnm : fd.field.NotModel) (hed : NotEdited c fd.name) (v : Val)
    (hv : Dict.get? d (.str fd.name) = some v) : Trusted env c base fd v := by
  have one : ∀ {k : Ctx} {content src : Data}, k.validate = true ∧ k.conv = .val ∧ k.trusted = [] → ¬ Crashed (runValidate env n k c (.inst content) src) →
      Dict.get? (dataOf (runValidate env n k c (.inst content) src)) (.str fd.name) = some v → Trusted env c base fd v := by
    rintro k content src ⟨k1, k2, k3⟩ hcr hget
    obtain ⟨ss, content', raw', hprep, hcase⟩ := validated_field hc hx hm k1 (by rw [k3]; exact nodup_nil) hcr hfd hset hed
    rcases hcase with ⟨_, hno⟩ | ⟨⟨d, hd, hnr⟩, hst, _⟩
    · rw [hno] at hget; cases hget
    rw [hget] at hst hd
    generalize hov : some v = o at hst
    cases hst with
    | kept _ h => rw [k3] at h; cases h
    | converted ht ha _ => cases hov; exact .validated k2 ha hd hnr
    | undefined _ _ => rw [k3] at hov; cases hov
    | partialData _ ha => obtain ⟨m, hm⟩ := ha; exact absurd hm (fieldConv_noData hnm _ _ _)
    | fallback _ _ _ _ _ _ => cases hov; exact .default rfl
    | refused _ _ _ _ _ => rw [k3] at hov; cases hov
  induction hd with
  | base h => exact .first h hv
  | @validated k content src d hk h =>
    refine one hk ?_ (by rw [h]; exact hv)
    rintro ⟨e, he, _⟩; rw [h] at he; cases he
  | @completed k content src d p es hk hd h ih =>
    have hnd := runValidate_nodup (env := env) (n := n) (ctx := k) (c := c) (mu := .inst content) (raw := src) hc hm.nodup (by rw [hk.2.2]; exact nodup_nil)
    rw [h] at hnd
    have hnd' : Dict.Nodup p := hnd
    rw [Dict.get?_update _ _ hnd'] at hv
    cases hp : Dict.get? p (.str fd.name) with
    | none => rw [hp] at hv; exact ih hv
    | some w =>
      rw [hp] at hv
      refine one hk ?_ (by rw [h]; exact hp.trans hv)
      rintro ⟨e, he, hne⟩; rw [h] at he; cases he; exact hne _ _ rfl
  | @deleted d x hd ih =>
    refine ih ?_
    rw [Dict.get?_erase (legit_nodup hc hm hb hd)] at hv
    split at hv
    · cases hv
    · exact hv

/-- **C107** (recovery).  However the calls on an instance that was created without `lazy=True` were interrupted: the next `validate()` (without `partial=True`) that returns or raises `DataError`
leaves the instance whole — its attributes and its chain map agree, nothing is pending, and everything that follows is as if there had never been an interrupt (`C107_uninterrupted`). -/
theorem C107_recovery (env : Env) (n : Nat) (c : ClassDef) (h : DictHeap) (I : HInst) (hI : HInst.Ok h I) (hr : (I.value h).raw = []) (l : List (Op × List Bool)) (ctx : Ctx) (hp : ctx.partial_ = false)
    (o : List Bool)
    (hret : (Steps.op env n c (.validate ctx) ((Cells.of h I).history env n c l) o).1 = .ok () ∨
      ∃ es p, (Steps.op env n c (.validate ctx) ((Cells.of h I).history env n c l) o).1 = .error (.exc (.data es p))) :
    ∃ h' J, ((Cells.of h I).history env n c l).after env n c (.validate ctx) o = Cells.of h' J ∧ HInst.Ok h' J ∧ (J.value h').raw = [] ∧ (J.value h').converted = [] ∧
      Legit env n c (ValidBase h I) (J.value h').valid := by
  have hcalm : Calm I.raw 0 (Cells.of h I) := ⟨rfl, rfl, hr, hI.raw, ⟨Ne.symm hI.rc, hI.converted⟩, ⟨Ne.symm hI.rs, hI.stale⟩, Nat.zero_le _⟩
  have hs := keeps_history l (sound_start (env := env) (n := n) (c := c) hI)
  have hcl := calm_history (env := env) (n := n) (c := c) l hcalm
  generalize (Cells.of h I).history env n c l = s at *
  have hs' := after_holds (keeps_op (.validate ctx) hs) o
  have hcl' := after_holds (calm_op (env := env) (n := n) (c := c) hcl (.validate ctx)) o
  have hag : Whole (s.after env n c (.validate ctx) o) := by
    have key : Post (Steps.op env n c (.validate ctx)) s (fun _ s' => Whole s') (fun f s' => ∀ es p, f = .exc (.data es p) → Whole s') := by
      unfold Steps.op
      exact Post.seq (agree_validate ctx hp s) fun _ s' ha => Post.tick ha nofun
    have := key o
    unfold Cells.after
    generalize hq : Steps.op env n c (.validate ctx) s o = q at *
    obtain ⟨a, s', o'⟩ := q
    rcases hret with e | ⟨es, p, e⟩ <;> simp only [] at e <;> subst e
    · exact this.1 _ _ _ rfl
    · exact this.2 _ _ _ rfl es p rfl
  generalize s.after env n c (.validate ctx) o = s' at *
  refine ⟨s'.heap, s'.attrs, ?_, ?_, ?_, hag.none, hs'.valid.2⟩
  · have h0 : s'.map0 = s'.attrs.raw := hcl'.map0.trans hcl'.raw.symm
    have h1 := hag.map1
    have h2 := hag.map2
    obtain ⟨hp, at', m0, m1, m2⟩ := s'
    simp only [] at h0 h1 h2
    subst h0; subst h1; subst h2
    rfl
  · have f0 := hs'.free _ (.inl rfl)
    have f1 := hs'.free _ (.inr (.inr (.inl rfl)))
    refine ⟨f0.1, f1.1, hs'.valid.1, hs'.stale.1, ?_, f0.2.1, f0.2.2.2, f1.2.1, f1.2.2.2⟩
    rw [hcl'.raw]; exact Ne.symm hcl'.converted.1
  · show s'.heap.rd s'.attrs.raw = []
    rw [hcl'.raw]; exact hcl'.empty

/-! ## The hypotheses are met, and what is lost -/

namespace Samples

/-- An interrupt at the `k`-th step. -/
def at_ (k : Nat) : List Bool := List.replicate k false ++ [true]

/-- `m = Badge({'qty': 1, 'label': 'a'}); m.validate(); m.qty = 5` -/
def badgeP : Inst := runOps env 5 badge badgeI [.validate {}, .set "qty" (.int 5)]
theorem badgeP_reachable : Reachable env 5 badge true badgeP := .step (.set "qty" (.int 5)) (.step (.validate {}) badgeI_reachable)
def cellsI : HInst := ⟨0, 1, 2, 3⟩
/-- The dicts of `badgeP`. -/
def cellsP : DictHeap := [[], badgeP.converted, badgeP.valid, []]
theorem cellsP_ok : HInst.Ok cellsP cellsI := by constructor <;> decide
theorem cellsP_value : cellsI.value cellsP = badgeP := rfl
/-- The dicts of `badgeN` (`m.qty = -7` is pending). -/
def cellsN : DictHeap := [[], badgeN.converted, badgeN.valid, []]
theorem cellsN_ok : HInst.Ok cellsN cellsI := by constructor <;> decide

example := C107_fields env 5 badge badge_wf badge_tidy.nodup cellsP cellsI cellsP_ok badgeP_reachable (.importData [(.str "qty", .int 8)] { validate := true }) (at_ 9) _ badge_qty badge_assigns
example := C107_valid_values env 5 badge badge_wf badge_distinct badge_tidy (ValidBase cellsP cellsI) (by rintro d (rfl | rfl) <;> (unfold Dict.Nodup; decide)) _
  (C107_valid_layer env 5 badge cellsP cellsI cellsP_ok [(.validate {}, at_ 7), (.set "qty" (.int 9), []), (.serialize {}, at_ 3)]).1 _ badge_qty.mem badge_qty.set qty_notModel badge_edits
example := C107_recovery env 5 badge cellsN cellsI cellsN_ok rfl [(.validate {}, at_ 8), (.set "qty" (.int 5), [])] {} rfl [] (.inr ⟨_, _, rfl⟩)
example : (Steps.op env 5 badge (.validate {}) (Cells.of cellsP cellsI) (List.replicate 4 false)).1 ≠ .error .interrupt := nofun

/-- **C107** (what is lost).  `m.qty = 5` is pending and valid.  `m.validate()` is interrupted: the `finally` block discards the pending values, the new valid data is not there yet, and `m.qty`
reads the old value `1`.  Without the interrupt, and before the call, it reads `5`. -/
theorem C107_counterexample_pending_lost :
    ((Cells.of cellsP cellsI).after env 5 badge (.validate {}) (at_ 1)).lookup (.str "qty") = some (.int 1) ∧
    ((Cells.of cellsP cellsI).after env 5 badge (.validate {}) []).lookup (.str "qty") = some (.int 5) ∧
    (Cells.of cellsP cellsI).lookup (.str "qty") = some (.int 5) := ⟨rfl, rfl, rfl⟩

/-- **C107** (what is lost).  `m.qty = -7` is pending; `serialize()` leaves it pending (C40), but a `serialize()` that is interrupted between its validation and the end loses it. -/
theorem C107_counterexample_serialize_loses :
    ((Cells.of cellsN cellsI).after env 5 badge (.serialize {}) (at_ 10)).lookup (.str "qty") = some (.int 1) ∧
    ((Cells.of cellsN cellsI).after env 5 badge (.serialize {}) []).lookup (.str "qty") = some (.int (-7)) := ⟨rfl, rfl⟩

/-- **C107** (a torn setter).  Interrupted between the two stores of `_data.converted = {}`, the instance writes to one dict and reads from another: `m.qty = 5` then returns, and `m.qty` still
reads `-7`; the next `validate()` rejects the `-7`, and the assignment is lost. -/
theorem C107_counterexample_invisible_assignment :
    ((Cells.of cellsN cellsI).history env 5 badge [(.validate {}, at_ 8), (.set "qty" (.int 5), [])]).lookup (.str "qty") = some (.int (-7)) ∧
    (∃ es p, (Steps.op env 5 badge (.validate {}) ((Cells.of cellsN cellsI).history env 5 badge [(.validate {}, at_ 8), (.set "qty" (.int 5), [])]) ([] : List Bool)).1 = .error (.exc (.data es p))) ∧
    ((Cells.of cellsN cellsI).history env 5 badge [(.validate {}, at_ 8), (.set "qty" (.int 5), []), (.validate {}, [])]).lookup (.str "qty") = some (.int 1) := ⟨rfl, ⟨_, _, rfl⟩, rfl⟩

/-- The dicts of `Badge({'qty': 4}, lazy=True)`. -/
def cellsL : DictHeap := [[(.str "qty", .int 4)], [], []]
def lazyI : HInst := ⟨0, 1, 2, 2⟩
theorem cellsL_ok : HInst.Ok cellsL lazyI := by constructor <;> decide

/-- **C107** (lazy instances, data lost).  The first `validate()` of a lazy instance is interrupted after it took the raw data: the data is gone, and a later `validate()` reports the field as
missing. -/
theorem C107_counterexample_lazy_loses :
    ((Cells.of cellsL lazyI).after env 5 badge (.validate {}) (at_ 3)).lookup (.str "qty") = none ∧
    (∃ es p, (Steps.op env 5 badge (.validate {}) ((Cells.of cellsL lazyI).after env 5 badge (.validate {}) (at_ 3)) ([] : List Bool)).1 = .error (.exc (.data es p))) ∧
    (Steps.op env 5 badge (.validate {}) (Cells.of cellsL lazyI) ([] : List Bool)).1 = .ok () := ⟨rfl, ⟨_, _, rfl⟩, rfl⟩

/-- **C107** (lazy instances, no recovery).  Interrupted between the two stores of `_data.unsafe = {}`, a lazy instance reads its raw data for ever: after a `validate()` that returns and an
assignment that returns, `m.qty` still reads `4`. -/
theorem C107_counterexample_lazy_stuck :
    (Steps.op env 5 badge (.validate {}) ((Cells.of cellsL lazyI).history env 5 badge [(.validate {}, at_ 2), (.set "qty" (.int 5), [])]) ([] : List Bool)).1 = .ok () ∧
    ((Cells.of cellsL lazyI).history env 5 badge [(.validate {}, at_ 2), (.set "qty" (.int 5), []), (.validate {}, []), (.set "qty" (.int 6), [])]).lookup (.str "qty") = some (.int 4) := ⟨rfl, rfl⟩

end Samples

end Verif
