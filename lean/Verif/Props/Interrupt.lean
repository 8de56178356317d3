import Verif.Core.Interrupt
import Verif.Props.Alias
import Verif.Props.Instance5

/-! # C107: interrupted calls -/
namespace Verif

open DictHeap

/-! ## Without interrupts -/

namespace Steps

theorem bind_ok {σ : Type} {m : Steps σ α} {k : α → Steps σ β} {s s1 : Cells} {o o1 : σ} {a : α} (h : m s o = (.ok a, s1, o1)) : (m >>= k) s o = k a s1 o1 := by
  show Steps.bind m k s o = _
  unfold Steps.bind; rw [h]

theorem bind_error {σ : Type} {m : Steps σ α} {k : α → Steps σ β} {s s1 : Cells} {o o1 : σ} {f : Fault} (h : m s o = (.error f, s1, o1)) : (m >>= k) s o = (.error f, s1, o1) := by
  show Steps.bind m k s o = _
  unfold Steps.bind; rw [h]

theorem store_nil (f : Cells → Cells) (s : Cells) : store f s ([] : List Bool) = (.ok (), f s, []) := rfl

theorem alloc_nil (d : Data) (s : Cells) : alloc d s ([] : List Bool) = (.ok s.heap.length, { s with heap := (s.heap.new d).1 }, []) := rfl

theorem wr_rd (h : DictHeap) (a : Nat) : h.wr a (h.rd a) = h := by
  unfold wr rd
  by_cases ha : a < h.length
  · rw [List.getElem?_eq_getElem ha]; simp
  · rw [List.set_eq_of_length_le (by omega)]

theorem wr_wr (h : DictHeap) (a : Nat) (d e : Data) : (h.wr a d).wr a e = h.wr a e := by
  unfold wr; simp

theorem wr_out (h : DictHeap) (a : Nat) (d : Data) (ha : ¬ a < h.length) : h.wr a d = h := by
  unfold wr; rw [List.set_eq_of_length_le (by omega)]

theorem writeAt_nil (a : Nat) (l : List (Key × Val)) : ∀ s : Cells, writeAt a l s ([] : List Bool) = (.ok (), { s with heap := s.heap.wr a ((s.heap.rd a).update l) }, []) := by
  induction l with
  | nil =>
    intro s
    show (Except.ok (), s, ([] : List Bool)) = _
    have : (s.heap.rd a).update [] = s.heap.rd a := rfl
    rw [this, wr_rd]
  | cons kv l ih =>
    intro s
    unfold writeAt
    rw [bind_ok (store_nil _ s), ih]
    simp only []
    by_cases ha : a < s.heap.length
    · rw [wr_wr, rd_wr _ _ _ _ ha, if_pos rfl]; rfl
    · rw [wr_out _ _ _ ha, wr_out _ _ _ ha, wr_out _ _ _ ha]

theorem ofR_nil (r : R α) (s : Cells) : ofR r s ([] : List Bool) = (match r with | .ok a => (.ok a, s, []) | .error e => (.error (.exc e), s, [])) := by
  cases r <;> rfl

theorem setAttr_nil (env : Env) (n : Nat) (c : ClassDef) (name : String) (v : Val) (h : DictHeap) (I : HInst) :
    (setAttr env n c name v (Cells.of h I) ([] : List Bool)).2 = (Cells.of (I.setAttr env n c h name v).2 I, []) := by
  unfold setAttr HInst.setAttr
  cases c.field? name with
  | none => rfl
  | some fd =>
    simp only []
    cases fd.fget with
    | none =>
      simp only []
      cases preSet env n fd.field v with
      | error e => rfl
      | ok w => rfl
    | some g =>
      simp only []
      cases fd.fset with
      | none => rfl
      | some f =>
        simp only []
        cases hp : preSet env n fd.field v with
        | error e => rfl
        | ok w =>
          simp only []
          rw [bind_ok (ofR_nil _ _)]
          cases hf : f w with
          | error e => rfl
          | ok asg =>
            simp only []
            rw [bind_ok (ofR_nil _ _)]
            show (writeAt I.converted asg (Cells.of h I) ([] : List Bool)).2 = _
            rw [writeAt_nil]
            rfl

theorem delIn_nil (k : Key) (a : Nat) (s : Cells) : delIn k a s ([] : List Bool) = (.ok (HInst.delIn s.heap k a).1, { s with heap := (HInst.delIn s.heap k a).2 }, []) := by
  unfold delIn HInst.delIn
  rw [bind_ok (s1 := s) (o1 := []) (a := (s.heap.rd a).has k) rfl]
  cases (s.heap.rd a).has k <;> rfl

theorem delAttr_nil (c : ClassDef) (name : String) (h : DictHeap) (I : HInst) :
    (delAttr c name (Cells.of h I) ([] : List Bool)).2 = (Cells.of (I.delAttr c h name).2 I, []) := by
  unfold delAttr HInst.delAttr
  cases c.field? name with
  | none => rfl
  | some fd =>
    simp only []
    split
    · rfl
    · unfold delete HInst.delete
      simp only []
      rw [bind_ok (s1 := Cells.of h I) (o1 := []) (a := I.stale) rfl, bind_ok (delIn_nil _ _ _)]
      rw [bind_ok (o1 := []) (a := I.converted) rfl, bind_ok (delIn_nil _ _ _)]
      rw [bind_ok (o1 := []) (a := I.raw) rfl, bind_ok (delIn_nil _ _ _)]
      simp only [Cells.of]
      have key : ∀ (b : Bool) (s : Cells), ((if b = true then pure () else throw (Fault.exc (Exc.other "KeyError")) : Steps (List Bool) Unit) s []).2 = (s, []) := by
        intro b s; cases b <;> rfl
      exact key _ _

/-- The outcome of a computation on values as that of a program. -/
def lift : R α → Except Fault α
  | .ok a => .ok a
  | .error e => .error (.exc e)

theorem given_nil (raw : Data) (h : DictHeap) (I : HInst) : given raw (Cells.of h I) ([] : List Bool) = (.ok (I.given h raw).2, Cells.of (I.given h raw).1 I, []) := by
  unfold given HInst.given
  cases raw.isEmpty <;> rfl

theorem takePending_nil (r : Nat) (h : DictHeap) (I : HInst) :
    takePending r (Cells.of h I) ([] : List Bool) = (.ok (I.takePending h r).2.1, Cells.of (I.takePending h r).1 (I.takePending h r).2.2, []) := by
  unfold takePending HInst.takePending
  rw [bind_ok (s1 := Cells.of h I) (o1 := []) (a := h.rd I.raw) rfl]
  cases he : (h.rd I.raw).isEmpty with
  | true => rfl
  | false =>
    simp only [Bool.false_eq_true, if_false]
    rw [bind_ok (s1 := Cells.of h I) (o1 := []) (a := I.raw) rfl, bind_ok (s1 := Cells.of h I) (o1 := []) (a := h.rd r) rfl, bind_ok (writeAt_nil _ _ _)]
    rfl

theorem mutate_nil (env : Env) (n : Nat) (ctx : Ctx) (c : ClassDef) (r : Nat) (h : DictHeap) (I : HInst) :
    mutate env n ctx c r (Cells.of h I) ([] : List Bool) = (.ok (), Cells.of (I.mutate env n ctx c h r) I, []) := by
  unfold mutate HInst.mutate
  rw [bind_ok (s1 := Cells.of h I) (o1 := []) (a := h.rd r) rfl, bind_ok (s1 := Cells.of h I) (o1 := []) (a := I.converted) rfl, bind_ok (writeAt_nil _ _ _)]
  rw [bind_ok (o1 := []) rfl, writeAt_nil]
  rfl

theorem convert_nil (env : Env) (n : Nat) (c : ClassDef) (raw : Data) (ctx : Ctx) (h : DictHeap) (I : HInst) :
    convert env n c raw ctx (Cells.of h I) ([] : List Bool) =
      (lift (I.convert env n c h raw ctx).1, Cells.of (I.convert env n c h raw ctx).2.1 (I.convert env n c h raw ctx).2.2, []) := by
  unfold convert HInst.convert
  rw [bind_ok (s1 := Cells.of h I) (o1 := []) (a := !(h.rd I.raw).isEmpty) rfl, bind_ok (given_nil _ _ _), bind_ok (takePending_nil _ _ _)]
  simp only []
  generalize hq : I.takePending (I.given h raw).1 (I.given h raw).2 = q
  obtain ⟨h1, r, J⟩ := q
  simp only []
  rw [bind_ok (s1 := Cells.of h1 J) (o1 := []) (a := J.content h1) rfl, bind_ok (s1 := Cells.of h1 J) (o1 := []) (a := h1.rd r) rfl]
  unfold HInst.convertCtx
  cases hv : ctx.validate with
  | true =>
    simp only [if_true]
    rw [bind_ok (mutate_nil ..), ofR_nil]
    generalize runValidate env n _ c _ _ = z
    cases z <;> rfl
  | false =>
    simp only [Bool.false_eq_true, if_false]
    rw [ofR_nil]
    generalize runImport env n _ c _ _ = z
    cases z <;> rfl

theorem validate_nil (env : Env) (n : Nat) (c : ClassDef) (ctx : Ctx) (h : DictHeap) (I : HInst) :
    validate env n c ctx (Cells.of h I) ([] : List Bool) = (lift (I.validate env n c h ctx).1, Cells.of (I.validate env n c h ctx).2.1 (I.validate env n c h ctx).2.2, []) := by
  unfold validate HInst.validate
  rw [bind_ok (s1 := Cells.of h I) (o1 := []) (a := (h.rd I.converted).isEmpty && ctx.partial_) rfl]
  cases hs : (h.rd I.converted).isEmpty && ctx.partial_ with
  | true => rfl
  | false =>
    simp only [Bool.false_eq_true, if_false]
    unfold validateBody tryFinally tryData
    have hc := convert_nil env n c [] { ctx with validate := true, trusted := [] } h I
    generalize I.convert env n c h [] { ctx with validate := true, trusted := [] } = q at hc
    obtain ⟨r, h1, J⟩ := q
    cases r with
    | ok d =>
      simp only [lift] at hc
      rw [bind_ok hc]
      rfl
    | error e =>
      simp only [lift] at hc
      rw [bind_error hc]
      cases e <;> rfl

theorem importData_nil (env : Env) (n : Nat) (c : ClassDef) (raw : Data) (ctx : Ctx) (h : DictHeap) (I : HInst) :
    importData env n c raw ctx (Cells.of h I) ([] : List Bool) =
      (lift (I.importData env n c h raw ctx).1, Cells.of (I.importData env n c h raw ctx).2.1 (I.importData env n c h raw ctx).2.2, []) := by
  unfold importData HInst.importData
  rw [bind_ok (s1 := Cells.of h I) (o1 := []) (a := c.view (I.content h)) rfl]
  have hc := convert_nil env n c raw { ctx with trusted := c.view (I.content h) } h I
  generalize I.convert env n c h raw { ctx with trusted := c.view (I.content h) } = q at hc
  obtain ⟨r, h1, J⟩ := q
  cases r with
  | error e => simp only [lift] at hc; rw [bind_error hc]; rfl
  | ok d =>
    simp only [lift] at hc
    rw [bind_ok hc, bind_ok (s1 := Cells.of h1 J) (o1 := []) (a := J.converted) rfl, bind_ok (writeAt_nil _ _ _)]
    cases hv : ctx.validate with
    | true =>
      simp only [if_true]
      exact validate_nil env n c { convert := false } (h1.wr J.converted ((h1.rd J.converted).update d)) J
    | false => rfl

theorem serialize_nil (env : Env) (n : Nat) (c : ClassDef) (ectx : ECtx) (h : DictHeap) (I : HInst) :
    serialize env n c ectx (Cells.of h I) ([] : List Bool) =
      (lift (I.serialize env n c h ectx).1, Cells.of (I.serialize env n c h ectx).2.1 (I.serialize env n c h ectx).2.2, []) := by
  unfold serialize HInst.serialize
  rw [bind_ok (s1 := Cells.of h I) (o1 := []) (a := I.converted) rfl]
  have hc := validate_nil env n c { defaults := true, validate := true } h I
  generalize I.validate env n c h { defaults := true, validate := true } = q at hc
  obtain ⟨r, h1, J⟩ := q
  have fin : tryData (validate env n c { defaults := true, validate := true }) (fun _ _ => pure ()) (Cells.of h I) ([] : List Bool) = (.ok (), Cells.of h1 J, []) →
      (do
        tryData (validate env n c { defaults := true, validate := true }) fun _ _ => pure ()
        let content ← get (·.content)
        let d ← ofR (runExport env n ectx c (.inst content))
        putConverted I.converted
        pure d : Steps (List Bool) Data) (Cells.of h I) ([] : List Bool) =
      (lift (match runExport env n ectx c (.inst (J.content h1)) with
        | .error e => (.error e, h1, J)
        | .ok d => (.ok d, h1, { J with converted := I.converted }) : R Data × DictHeap × HInst).1,
       Cells.of (match runExport env n ectx c (.inst (J.content h1)) with
        | .error e => (.error e, h1, J)
        | .ok d => (.ok d, h1, { J with converted := I.converted }) : R Data × DictHeap × HInst).2.1
        (match runExport env n ectx c (.inst (J.content h1)) with
        | .error e => (.error e, h1, J)
        | .ok d => (.ok d, h1, { J with converted := I.converted }) : R Data × DictHeap × HInst).2.2, []) := by
    intro ht
    rw [bind_ok ht, bind_ok (s1 := Cells.of h1 J) (o1 := []) (a := J.content h1) rfl]
    cases hx : runExport env n ectx c (.inst (J.content h1)) with
    | error e => rfl
    | ok d => rfl
  cases r with
  | ok u => exact fin (by unfold tryData; rw [hc]; rfl)
  | error e =>
    cases e with
    | data es p => exact fin (by unfold tryData; rw [hc]; rfl)
    | _ => 
      rw [bind_error (by unfold tryData; rw [hc]; rfl)]
      rfl

theorem op_nil (env : Env) (n : Nat) (c : ClassDef) (x : Op) (h : DictHeap) (I : HInst) :
    (op env n c x (Cells.of h I) ([] : List Bool)).2.1 = Cells.of (I.run env n c h x).1 (I.run env n c h x).2 := by
  have key : ∀ {m : Steps (List Bool) Unit} {J : HInst} {h1 : DictHeap}, (m (Cells.of h I) ([] : List Bool)).2 = (Cells.of h1 J, []) → ((m >>= fun _ => tick) (Cells.of h I) ([] : List Bool)).2.1 = Cells.of h1 J := by
    intro m J h1 hm
    generalize hr : m (Cells.of h I) ([] : List Bool) = r at hm
    obtain ⟨a, s, o⟩ := r
    simp only [] at hm
    injection hm with h2 h3
    subst h2; subst h3
    cases a with
    | ok a => rw [bind_ok hr]; rfl
    | error f => rw [bind_error hr]
  unfold op
  cases x with
  | set name v => exact key (setAttr_nil ..)
  | del name => exact key (delAttr_nil ..)
  | validate ctx => exact key (by simp only []; rw [validate_nil]; rfl)
  | importData raw ctx => exact key (by simp only []; rw [importData_nil]; rfl)
  | serialize ectx =>
    refine key ?_
    simp only []
    have := serialize_nil env n c ectx h I
    cases hr : (I.serialize env n c h ectx).1 with
    | ok a => rw [hr] at this; rw [bind_ok this]; rfl
    | error f => rw [hr] at this; rw [bind_error this]; rfl

end Steps

/-! ## Reasoning about all schedules -/

/-- Whatever the schedule: if the program returns, `Q` holds, else `E`. -/
def Post (m : Steps (List Bool) α) (s : Cells) (Q : α → Cells → Prop) (E : Fault → Cells → Prop) : Prop :=
  ∀ o, (∀ a s' o', m s o = (.ok a, s', o') → Q a s') ∧ (∀ f s' o', m s o = (.error f, s', o') → E f s')

namespace Post

theorem mono {m : Steps (List Bool) α} {s : Cells} {Q Q' : α → Cells → Prop} {E E' : Fault → Cells → Prop} (h : Post m s Q E) (hq : ∀ a s', Q a s' → Q' a s')
    (he : ∀ f s', E f s' → E' f s') : Post m s Q' E' :=
  fun o => ⟨fun a s' o' e => hq a s' ((h o).1 a s' o' e), fun f s' o' e => he f s' ((h o).2 f s' o' e)⟩

theorem ret {a : α} {s : Cells} {Q : α → Cells → Prop} {E : Fault → Cells → Prop} (h : Q a s) : Post (Steps.pure a) s Q E := by
  intro o
  refine ⟨fun a' s' o' e => ?_, fun f s' o' e => ?_⟩
  · unfold Steps.pure at e; injection e with e1 e2; injection e1 with e1; injection e2 with e2; subst e1; subst e2; exact h
  · unfold Steps.pure at e; injection e with e1; cases e1

theorem raise {f : Fault} {s : Cells} {Q : α → Cells → Prop} {E : Fault → Cells → Prop} (h : E f s) : Post (Steps.throw f : Steps (List Bool) α) s Q E := by
  intro o
  refine ⟨fun a' s' o' e => ?_, fun f s' o' e => ?_⟩
  · unfold Steps.throw at e; injection e with e1; cases e1
  · unfold Steps.throw at e; injection e with e1 e2; injection e1 with e1; injection e2 with e2; subst e1; subst e2; exact h

theorem look {g : Cells → α} {s : Cells} {Q : α → Cells → Prop} {E : Fault → Cells → Prop} (h : Q (g s) s) : Post (Steps.get g) s Q E := by
  intro o
  refine ⟨fun a' s' o' e => ?_, fun f s' o' e => ?_⟩
  · unfold Steps.get at e; injection e with e1 e2; injection e1 with e1; injection e2 with e2; subst e1; subst e2; exact h
  · unfold Steps.get at e; injection e with e1; cases e1

theorem tick {s : Cells} {Q : Unit → Cells → Prop} {E : Fault → Cells → Prop} (h : Q () s) (hi : E .interrupt s) : Post Steps.tick s Q E := by
  intro o
  unfold Steps.tick
  refine ⟨fun a' s' o' e => ?_, fun f s' o' e => ?_⟩
  · split at e
    · injection e with e1; cases e1
    · injection e with e1 e2; injection e2 with e2; subst e2; exact h
  · split at e
    · injection e with e1 e2; injection e1 with e1; injection e2 with e2; subst e1; subst e2; exact hi
    · injection e with e1; cases e1

theorem seq {m : Steps (List Bool) α} {k : α → Steps (List Bool) β} {s : Cells} {Q' : α → Cells → Prop} {Q : β → Cells → Prop} {E : Fault → Cells → Prop} (h : Post m s Q' E)
    (hk : ∀ a s', Q' a s' → Post (k a) s' Q E) : Post (m >>= k) s Q E := by
  intro o
  generalize hr : m s o = r
  obtain ⟨x, s1, o1⟩ := r
  cases x with
  | ok a =>
    rw [Steps.bind_ok hr]
    exact hk a s1 ((h o).1 a s1 o1 hr) o1
  | error f =>
    rw [Steps.bind_error hr]
    refine ⟨fun a s' o' e => (by injection e with e1; cases e1), fun f' s' o' e => ?_⟩
    injection e with e1 e2; injection e1 with e1; injection e2 with e2; subst e1; subst e2
    exact (h o).2 f s1 o1 hr

theorem store {g : Cells → Cells} {s : Cells} {Q : Unit → Cells → Prop} {E : Fault → Cells → Prop} (h : Q () (g s)) (hi : E .interrupt s) :
    Post (Steps.store g) s Q E := by
  have ht : Post Steps.tick s (fun _ s' => s' = s) (fun f s' => f = .interrupt ∧ s' = s) := tick rfl ⟨rfl, rfl⟩
  intro o
  unfold Steps.store
  generalize hr : Steps.tick s o = r
  obtain ⟨x, s1, o1⟩ := r
  cases x with
  | ok a =>
    have := (ht o).1 a s1 o1 hr
    subst this
    refine ⟨fun a s' o' e => ?_, fun f s' o' e => (by injection e with e1; cases e1)⟩
    injection e with e1 e2; injection e2 with e2; subst e2; exact h
  | error f =>
    obtain ⟨rfl, rfl⟩ := (ht o).2 f s1 o1 hr
    refine ⟨fun a s' o' e => (by injection e with e1; cases e1), fun f' s' o' e => ?_⟩
    injection e with e1 e2; injection e1 with e1; injection e2 with e2; subst e1; subst e2; exact hi

theorem alloc {d : Data} {s : Cells} {Q : Nat → Cells → Prop} {E : Fault → Cells → Prop} (h : Q s.heap.length { s with heap := (s.heap.new d).1 })
    (hi : E .interrupt s) : Post (Steps.alloc d) s Q E := by
  have ht : Post Steps.tick s (fun _ s' => s' = s) (fun f s' => f = .interrupt ∧ s' = s) := tick rfl ⟨rfl, rfl⟩
  intro o
  unfold Steps.alloc
  generalize hr : Steps.tick s o = r
  obtain ⟨x, s1, o1⟩ := r
  cases x with
  | ok a =>
    have := (ht o).1 a s1 o1 hr
    subst this
    refine ⟨fun a s' o' e => ?_, fun f s' o' e => (by injection e with e1; cases e1)⟩
    injection e with e1 e2; injection e1 with e1; injection e2 with e2; subst e1; subst e2; exact h
  | error f =>
    obtain ⟨rfl, rfl⟩ := (ht o).2 f s1 o1 hr
    refine ⟨fun a s' o' e => (by injection e with e1; cases e1), fun f' s' o' e => ?_⟩
    injection e with e1 e2; injection e1 with e1; injection e2 with e2; subst e1; subst e2; exact hi

theorem ofR {r : R α} {s : Cells} {Q : α → Cells → Prop} {E : Fault → Cells → Prop} (h : ∀ a, r = .ok a → Q a s) (he : ∀ e, r = .error e → E (.exc e) s)
    (hi : E .interrupt s) : Post (Steps.ofR r) s Q E := by
  cases r with
  | ok a => exact seq (tick (Q := fun _ s' => s' = s) rfl hi) fun _ s' hs => by subst hs; exact ret (h a rfl)
  | error e => exact seq (tick (Q := fun _ s' => s' = s) rfl hi) fun _ s' hs => by subst hs; exact raise (he e rfl)

theorem tryData {m : Steps (List Bool) α} {g : Errs → Data → Steps (List Bool) α} {s : Cells} {Q : α → Cells → Prop} {E E' : Fault → Cells → Prop} (h : Post m s Q E')
    (hg : ∀ es p s', E' (.exc (.data es p)) s' → Post (g es p) s' Q E) (he : ∀ f s', (∀ es p, f ≠ .exc (.data es p)) → E' f s' → E f s') :
    Post (Steps.tryData m g) s Q E := by
  intro o
  unfold Steps.tryData
  generalize hr : m s o = r
  obtain ⟨x, s1, o1⟩ := r
  cases x with
  | ok a =>
    refine ⟨fun a' s' o' e => ?_, fun f s' o' e => (by injection e with e1; cases e1)⟩
    injection e with e1 e2; injection e1 with e1; injection e2 with e2; subst e1; subst e2
    exact (h o).1 _ _ _ hr
  | error f =>
    have hf := (h o).2 _ _ _ hr
    have other : (∀ es p, f ≠ .exc (.data es p)) → (∀ a s' o', ((.error f, s1, o1) : Except Fault α × Cells × List Bool) = (.ok a, s', o') → Q a s') ∧
        (∀ f' s' o', ((.error f, s1, o1) : Except Fault α × Cells × List Bool) = (.error f', s', o') → E f' s') := by
      intro hn
      refine ⟨fun a' s' o' e => (by injection e with e1; cases e1), fun f' s' o' e => ?_⟩
      injection e with e1 e2; injection e1 with e1; injection e2 with e2; subst e1; subst e2
      exact he _ _ hn hf
    cases f with
    | interrupt => exact other nofun
    | exc e =>
      cases e with
      | data es p => exact hg es p s1 hf o1
      | field k ms => exact other nofun
      | compound es => exact other nofun
      | other w => exact other nofun
      | fuel => exact other nofun

theorem tryFinally {m : Steps (List Bool) α} {last : Steps (List Bool) Unit} {s : Cells} {Q Q' : α → Cells → Prop} {E E' : Fault → Cells → Prop} (h : Post m s Q' E')
    (hq : ∀ a s', Q' a s' → Post last s' (fun _ s'' => Q a s'') E) (he : ∀ f s', E' f s' → Post last s' (fun _ s'' => E f s'') E) :
    Post (Steps.tryFinally m last) s Q E := by
  intro o
  unfold Steps.tryFinally
  generalize hr : m s o = r
  obtain ⟨x, s1, o1⟩ := r
  simp only []
  generalize hl : last s1 o1 = l
  obtain ⟨y, s2, o2⟩ := l
  cases y with
  | ok u =>
    simp only []
    cases x with
    | ok a =>
      refine ⟨fun a' s' o' e => ?_, fun f s' o' e => (by injection e with e1; cases e1)⟩
      injection e with e1 e2; injection e1 with e1; injection e2 with e2; subst e1; subst e2
      exact (hq a s1 ((h o).1 _ _ _ hr) o1).1 _ _ _ hl
    | error f =>
      refine ⟨fun a' s' o' e => (by injection e with e1; cases e1), fun f' s' o' e => ?_⟩
      injection e with e1 e2; injection e1 with e1; injection e2 with e2; subst e1; subst e2
      exact (he f s1 ((h o).2 _ _ _ hr) o1).1 _ _ _ hl
  | error g =>
    simp only []
    refine ⟨fun a' s' o' e => (by injection e with e1; cases e1), fun f' s' o' e => ?_⟩
    injection e with e1 e2; injection e1 with e1; injection e2 with e2; subst e1; subst e2
    cases x with
    | ok a => exact (hq a s1 ((h o).1 _ _ _ hr) o1).2 _ _ _ hl
    | error f => exact (he f s1 ((h o).2 _ _ _ hr) o1).2 _ _ _ hl

/-- `dict.update`, interrupted somewhere: some of the entries are stored. -/
theorem writeAt {a : Nat} (l : List (Key × Val)) : ∀ {s : Cells} {Q : Unit → Cells → Prop} {E : Fault → Cells → Prop},
    Q () { s with heap := s.heap.wr a ((s.heap.rd a).update l) } →
    (∀ l1 l2, l1 ++ l2 = l → E .interrupt { s with heap := s.heap.wr a ((s.heap.rd a).update l1) }) → Post (Steps.writeAt a l) s Q E := by
  induction l with
  | nil =>
    intro s Q E h _
    have : (s.heap.rd a).update [] = s.heap.rd a := rfl
    rw [this, Steps.wr_rd] at h
    exact ret h
  | cons kv l ih =>
    intro s Q E h hi
    have step : ∀ l1, ((s.heap.wr a ((s.heap.rd a).set kv.1 kv.2)).wr a (((s.heap.wr a ((s.heap.rd a).set kv.1 kv.2)).rd a).update l1)) =
        s.heap.wr a ((s.heap.rd a).update (kv :: l1)) := by
      intro l1
      by_cases ha : a < s.heap.length
      · rw [Steps.wr_wr, rd_wr _ _ _ _ ha, if_pos rfl]; rfl
      · rw [Steps.wr_out _ _ _ ha, Steps.wr_out _ _ _ ha, Steps.wr_out _ _ _ ha]
    refine seq (store (Q := fun _ s' => s' = { s with heap := s.heap.wr a ((s.heap.rd a).set kv.1 kv.2) }) rfl ?_) fun _ s' hs => ?_
    · have := hi [] (kv :: l) rfl
      have hn : (s.heap.rd a).update [] = s.heap.rd a := rfl
      rw [hn, Steps.wr_rd] at this
      exact this
    · subst hs
      refine ih ?_ ?_
      · show Q () { s with heap := _ }
        rw [step]; exact h
      · intro l1 l2 hl
        show E _ { s with heap := _ }
        rw [step]; exact hi (kv :: l1) l2 (by rw [← hl]; rfl)

end Post

/-! ## An interrupt is not lost -/

/-- The same program for two watchers: if the first returns, or raises an exception, then the second does the same when no interrupt comes. -/
def Same {σ : Type} (m : Steps σ α) (m0 : Steps (List Bool) α) : Prop := ∀ s o r s' o', m s o = (r, s', o') → r ≠ .error .interrupt → m0 s ([] : List Bool) = (r, s', [])

/-- If the program returns, or raises an exception, then no interrupt came. -/
def Honest (m : Steps (List Bool) α) : Prop := Same m m

namespace Same

variable {σ : Type} [Watcher σ]

theorem ret (a : α) : Same (Steps.pure a : Steps σ α) (Steps.pure a) := by
  intro s o r s' o' h _
  unfold Steps.pure at h ⊢
  injection h with h1 h2; injection h2 with h2; subst h1; subst h2; rfl

theorem raise (f : Fault) : Same (Steps.throw f : Steps σ α) (Steps.throw f) := by
  intro s o r s' o' h _
  unfold Steps.throw at h ⊢
  injection h with h1 h2; injection h2 with h2; subst h1; subst h2; rfl

theorem look (g : Cells → α) : Same (Steps.get g : Steps σ α) (Steps.get g) := by
  intro s o r s' o' h _
  unfold Steps.get at h ⊢
  injection h with h1 h2; injection h2 with h2; subst h1; subst h2; rfl

theorem tick : Same (Steps.tick : Steps σ Unit) Steps.tick := by
  intro s o r s' o' h hi
  unfold Steps.tick at h ⊢
  split at h <;> (injection h with h1 h2; injection h2 with h2; subst h1; subst h2)
  · exact absurd rfl hi
  · rfl

theorem store (g : Cells → Cells) : Same (Steps.store g : Steps σ Unit) (Steps.store g) := by
  intro s o r s' o' h hi
  unfold Steps.store at h
  generalize ht : Steps.tick s o = t at h
  obtain ⟨x, s1, o1⟩ := t
  cases x with
  | ok u =>
    have := tick s o _ _ _ ht nofun
    simp only [] at h
    injection h with h1 h2; injection h2 with h2; subst h1; subst h2
    unfold Steps.store
    rw [this]
  | error f =>
    simp only [] at h
    injection h with h1 h2; injection h2 with h2; subst h1; subst h2
    have := tick s o _ _ _ ht (by intro e; injection e with e; subst e; exact hi rfl)
    unfold Steps.store
    rw [this]

theorem alloc (d : Data) : Same (Steps.alloc d : Steps σ Nat) (Steps.alloc d) := by
  intro s o r s' o' h hi
  unfold Steps.alloc at h
  generalize ht : Steps.tick s o = t at h
  obtain ⟨x, s1, o1⟩ := t
  cases x with
  | ok u =>
    have := tick s o _ _ _ ht nofun
    simp only [] at h
    injection h with h1 h2; injection h2 with h2; subst h1; subst h2
    unfold Steps.alloc
    rw [this]
  | error f =>
    simp only [] at h
    injection h with h1 h2; injection h2 with h2; subst h1; subst h2
    have := tick s o _ _ _ ht (by intro e; injection e with e; subst e; exact hi rfl)
    unfold Steps.alloc
    rw [this]

theorem seq {m : Steps σ α} {m0 : Steps (List Bool) α} {k : α → Steps σ β} {k0 : α → Steps (List Bool) β} (hm : Same m m0) (hk : ∀ a, Same (k a) (k0 a)) : Same (m >>= k) (m0 >>= k0) := by
  intro s o r s' o' h hi
  generalize hr : m s o = x at *
  obtain ⟨x, s1, o1⟩ := x
  cases x with
  | ok a =>
    rw [Steps.bind_ok hr] at h
    rw [Steps.bind_ok (hm _ _ _ _ _ hr nofun)]
    exact hk a _ _ _ _ _ h hi
  | error f =>
    rw [Steps.bind_error hr] at h
    injection h with h1 h2; injection h2 with h2; subst h1; subst h2
    rw [Steps.bind_error (hm _ _ _ _ _ hr (by intro e; injection e with e; subst e; exact hi rfl))]

theorem ofR (r : R α) : Same (Steps.ofR r : Steps σ α) (Steps.ofR r) := by
  cases r with
  | ok a => exact seq tick fun _ => ret a
  | error e => exact seq tick fun _ => raise _

theorem writeAt (a : Nat) (l : List (Key × Val)) : Same (Steps.writeAt a l : Steps σ Unit) (Steps.writeAt a l) := by
  induction l with
  | nil => exact ret ()
  | cons kv l ih => exact seq (store _) fun _ => ih

theorem tryData {m : Steps σ α} {m0 : Steps (List Bool) α} {g : Errs → Data → Steps σ α} {g0 : Errs → Data → Steps (List Bool) α} (hm : Same m m0) (hg : ∀ es p, Same (g es p) (g0 es p)) :
    Same (Steps.tryData m g) (Steps.tryData m0 g0) := by
  intro s o r s' o' h hi
  unfold Steps.tryData at h
  generalize hr : m s o = x at *
  obtain ⟨x, s1, o1⟩ := x
  have other : (∀ es p, x ≠ .error (.exc (.data es p))) → ((x, s1, o1) : Except Fault α × Cells × σ) = (r, s', o') → Steps.tryData m0 g0 s ([] : List Bool) = (r, s', []) := by
    intro hn e
    injection e with h1 h2; injection h2 with h2; subst h1; subst h2
    have := hm _ _ _ _ _ hr hi
    unfold Steps.tryData
    rw [this]
    cases x with
    | ok a => rfl
    | error f =>
      cases f with
      | interrupt => rfl
      | exc e =>
        cases e with
        | data es p => exact absurd rfl (hn es p)
        | _ => rfl
  cases x with
  | ok a => exact other nofun h
  | error f =>
    cases f with
    | interrupt => exact other nofun h
    | exc e =>
      cases e with
      | data es p =>
        have := hm _ _ _ _ _ hr nofun
        unfold Steps.tryData
        rw [this]
        exact hg es p _ _ _ _ _ h hi
      | field k ms => exact other nofun h
      | compound es => exact other nofun h
      | other w => exact other nofun h
      | fuel => exact other nofun h

/-- `finally`, if the last part raises no exception of its own. -/
theorem tryFinally {m : Steps σ α} {m0 : Steps (List Bool) α} {last : Steps σ Unit} {last0 : Steps (List Bool) Unit} (hm : Same m m0) (hl : Same last last0)
    (hn : ∀ s o f s' o', last s o = (.error f, s', o') → f = .interrupt) : Same (Steps.tryFinally m last) (Steps.tryFinally m0 last0) := by
  intro s o r s' o' h hi
  unfold Steps.tryFinally at h
  generalize hr : m s o = x at *
  obtain ⟨x, s1, o1⟩ := x
  simp only [] at h
  generalize hy : last s1 o1 = y at h
  obtain ⟨y, s2, o2⟩ := y
  cases y with
  | error f =>
    have := hn _ _ _ _ _ hy
    subst this
    simp only [] at h
    injection h with h1 h2
    exact absurd h1.symm hi
  | ok u =>
    simp only [] at h
    injection h with h1 h2; injection h2 with h2; subst h1; subst h2
    have a := hm _ _ _ _ _ hr hi
    have b := hl _ _ _ _ _ hy nofun
    unfold Steps.tryFinally
    rw [a]
    simp only []
    rw [b]

theorem ite {b : Prop} [Decidable b] {m m' : Steps σ α} {m0 m0' : Steps (List Bool) α} (h : Same m m0) (h' : Same m' m0') : Same (if b then m else m') (if b then m0 else m0') := by
  split
  · exact h
  · exact h'

theorem convert (env : Env) (n : Nat) (c : ClassDef) (raw : Data) (ctx : Ctx) : Same (Steps.convert env n c raw ctx : Steps σ Data) (Steps.convert env n c raw ctx) := by
  unfold Steps.convert
  refine seq (look _) fun _ => seq (ite (look _) (alloc _)) fun r => seq ?_ fun r' => seq (look _) fun _ => seq (look _) fun _ => ite (seq ?_ fun _ => ofR _) (ofR _)
  · unfold Steps.takePending
    exact seq (look _) fun _ => ite (ret _) (seq (look _) fun _ => seq (look _) fun _ => seq (writeAt _ _) fun _ => seq (alloc _) fun _ =>
      seq (seq (store _) fun _ => store _) fun _ => ret _)
  · unfold Steps.mutate
    exact seq (look _) fun _ => seq (look _) fun _ => seq (writeAt _ _) fun _ => seq (look _) fun _ => writeAt _ _

theorem last_errors (s : Cells) (o : σ) (f : Fault) (s' : Cells) (o' : σ) (h : (do let a ← Steps.alloc []; Steps.putConverted a : Steps σ Unit) s o = (.error f, s', o')) : f = .interrupt := by
  have ht : ∀ (s : Cells) (o : σ), (∃ o', Steps.tick s o = (.ok (), s, o')) ∨ ∃ o', Steps.tick s o = (.error .interrupt, s, o') := by
    intro s o
    unfold Steps.tick
    generalize Watcher.ask s o = q
    obtain ⟨b, q⟩ := q
    cases b
    · exact .inl ⟨_, rfl⟩
    · exact .inr ⟨_, rfl⟩
  have hs : ∀ (g : Cells → Cells) (s : Cells) (o : σ), (∃ s' o', Steps.store g s o = (.ok (), s', o')) ∨ ∃ s' o', Steps.store g s o = (.error .interrupt, s', o') := by
    intro g s o
    unfold Steps.store
    rcases ht s o with ⟨o', e⟩ | ⟨o', e⟩ <;> rw [e]
    · exact .inl ⟨_, _, rfl⟩
    · exact .inr ⟨_, _, rfl⟩
  have ha : (∃ a s' o', Steps.alloc [] s o = (.ok a, s', o')) ∨ ∃ s' o', Steps.alloc [] s o = (.error .interrupt, s', o') := by
    unfold Steps.alloc
    rcases ht s o with ⟨o', e⟩ | ⟨o', e⟩ <;> rw [e]
    · exact .inl ⟨_, _, _, rfl⟩
    · exact .inr ⟨_, _, rfl⟩
  rcases ha with ⟨a, s1, o1, e⟩ | ⟨s1, o1, e⟩
  · rw [Steps.bind_ok e] at h
    unfold Steps.putConverted at h
    rcases hs (fun s => { s with attrs := { s.attrs with converted := a } }) s1 o1 with ⟨s2, o2, e⟩ | ⟨s2, o2, e⟩
    · rw [Steps.bind_ok e] at h
      rcases hs (fun s => { s with map1 := s.attrs.converted }) s2 o2 with ⟨s3, o3, e⟩ | ⟨s3, o3, e⟩
      · rw [e] at h; injection h with h; cases h
      · rw [e] at h; injection h with h; injection h with h; exact h.symm
    · rw [Steps.bind_error e] at h; injection h with h; injection h with h; exact h.symm
  · rw [Steps.bind_error e] at h; injection h with h; injection h with h; exact h.symm

theorem validate (env : Env) (n : Nat) (c : ClassDef) (ctx : Ctx) : Same (Steps.validate env n c ctx : Steps σ Unit) (Steps.validate env n c ctx) := by
  unfold Steps.validate
  refine seq (look _) fun _ => ite (ret _) ?_
  unfold Steps.validateBody
  refine tryFinally (tryData (seq (convert _ _ _ _ _) fun d => seq (alloc _) fun _ => seq (store _) fun _ => store _) fun es p => ?_) ?_ last_errors
  · exact seq (look _) fun _ => seq (alloc _) fun _ => seq (seq (store _) fun _ => store _) fun _ => raise _
  · exact seq (alloc _) fun _ => seq (store _) fun _ => store _

theorem importData (env : Env) (n : Nat) (c : ClassDef) (raw : Data) (ctx : Ctx) : Same (Steps.importData env n c raw ctx : Steps σ Unit) (Steps.importData env n c raw ctx) := by
  unfold Steps.importData
  exact seq (look _) fun _ => seq (convert _ _ _ _ _) fun _ => seq (look _) fun _ => seq (writeAt _ _) fun _ => ite (validate _ _ _ _) (ret _)

theorem serialize (env : Env) (n : Nat) (c : ClassDef) (ectx : ECtx) : Same (Steps.serialize env n c ectx : Steps σ Data) (Steps.serialize env n c ectx) := by
  unfold Steps.serialize
  exact seq (look _) fun _ => seq (tryData (validate _ _ _ _) fun _ _ => ret _) fun _ => seq (look _) fun _ => seq (ofR _) fun _ =>
    seq (seq (store _) fun _ => store _) fun _ => ret _

theorem setAttr (env : Env) (n : Nat) (c : ClassDef) (name : String) (v : Val) : Same (Steps.setAttr env n c name v : Steps σ Unit) (Steps.setAttr env n c name v) := by
  unfold Steps.setAttr
  split
  · exact raise _
  · split
    · split
      · exact raise _
      · exact seq (ofR _) fun _ => seq (ofR _) fun _ => seq (look _) fun _ => writeAt _ _
    · exact seq (ofR _) fun _ => seq (look _) fun _ => writeAt _ _

theorem delAttr (c : ClassDef) (name : String) : Same (Steps.delAttr c name : Steps σ Unit) (Steps.delAttr c name) := by
  unfold Steps.delAttr
  split
  · exact raise _
  · refine ite (raise _) ?_
    have hd : ∀ k a, Same (Steps.delIn k a : Steps σ Bool) (Steps.delIn k a) := fun k a => by
      unfold Steps.delIn
      exact seq (look _) fun _ => ite (seq (store _) fun _ => ret _) (ret _)
    unfold Steps.delete
    exact seq (look _) fun _ => seq (hd _ _) fun _ => seq (look _) fun _ => seq (hd _ _) fun _ => seq (look _) fun _ => seq (hd _ _) fun _ => ite (ret _) (raise _)

theorem op (env : Env) (n : Nat) (c : ClassDef) (x : Op) : Same (Steps.op env n c x : Steps σ Unit) (Steps.op env n c x) := by
  unfold Steps.op
  refine seq ?_ fun _ => tick
  cases x with
  | set name v => exact setAttr _ _ _ _ _
  | del name => exact delAttr _ _
  | validate ctx => exact validate _ _ _ _
  | importData raw ctx => exact importData _ _ _ _ _
  | serialize ectx => exact seq (serialize _ _ _ _) fun _ => ret _

end Same

namespace Honest

theorem convert (env : Env) (n : Nat) (c : ClassDef) (raw : Data) (ctx : Ctx) : Honest (Steps.convert env n c raw ctx) := Same.convert _ _ _ _ _

theorem last_interrupt (s : Cells) : Post (do let a ← Steps.alloc []; Steps.putConverted a) s (fun _ _ => True) (fun f _ => f = .interrupt) :=
  fun o => ⟨fun _ _ _ _ => trivial, fun f s' o' e => Same.last_errors s o f s' o' e⟩

theorem op (env : Env) (n : Nat) (c : ClassDef) (x : Op) : Honest (Steps.op env n c x) := Same.op _ _ _ _

end Honest

/-! ## The specification: the valid layer -/

/-- What the layer of validated data may be: what it was at first; the data returned by a completed validation; the layer before, completed with the partial data of a
validation that ended with a `DataError`; the layer before, without an entry that was deleted. -/
inductive Legit (env : Env) (n : Nat) (c : ClassDef) (base : Data → Prop) : Data → Prop
  | base {d : Data} (h : base d) : Legit env n c base d
  | validated {k : Ctx} {content src d : Data} (hk : k.validate = true ∧ k.conv = .val ∧ k.trusted = []) (h : runValidate env n k c (.inst content) src = .ok d) :
      Legit env n c base d
  | completed {k : Ctx} {content src d p : Data} {es : Errs} (hk : k.validate = true ∧ k.conv = .val ∧ k.trusted = []) (hd : Legit env n c base d)
      (h : runValidate env n k c (.inst content) src = .error (.data es p)) : Legit env n c base (d.update p)
  | deleted {d : Data} {x : Key} (hd : Legit env n c base d) : Legit env n c base (d.erase x)

/-! ## The valid layer is never torn -/

/-- The dict objects of the valid layer are legitimate, and apart from those of the other layers and those in `R`. -/
structure Sound (L : Data → Prop) (R : Nat → Prop) (s : Cells) : Prop where
  free : ∀ r, (r = s.attrs.raw ∨ r = s.map0 ∨ r = s.attrs.converted ∨ r = s.map1 ∨ R r) → r < s.heap.length ∧ r ≠ s.attrs.valid ∧ r ≠ s.map2 ∧ r ≠ s.attrs.stale
  valid : s.attrs.valid < s.heap.length ∧ L (s.heap.rd s.attrs.valid)
  map2 : s.map2 < s.heap.length ∧ L (s.heap.rd s.map2)
  stale : s.attrs.stale < s.heap.length ∧ L (s.heap.rd s.attrs.stale)

namespace Sound

variable {L : Data → Prop} {R : Nat → Prop} {s : Cells}

theorem weaken {R' : Nat → Prop} (h : Sound L R s) (hr : ∀ r, R' r → R r) : Sound L R' s :=
  ⟨fun r hr' => h.free r (hr'.imp id (Or.imp id (Or.imp id (Or.imp id (hr r))))), h.valid, h.map2, h.stale⟩

theorem add (h : Sound L R s) {a : Nat} (ha : a = s.attrs.raw ∨ a = s.map0 ∨ a = s.attrs.converted ∨ a = s.map1 ∨ R a) : Sound L (fun r => R r ∨ r = a) s := by
  refine ⟨fun r hr => h.free r ?_, h.valid, h.map2, h.stale⟩
  rcases hr with h | h | h | h | h | rfl
  · exact .inl h
  · exact .inr (.inl h)
  · exact .inr (.inr (.inl h))
  · exact .inr (.inr (.inr (.inl h)))
  · exact .inr (.inr (.inr (.inr h)))
  · exact ha

/-- Any change of a dict which does not belong to the valid layer. -/
theorem wr (h : Sound L R s) {a : Nat} (ha : a = s.attrs.raw ∨ a = s.map0 ∨ a = s.attrs.converted ∨ a = s.map1 ∨ R a) (d : Data) :
    Sound L R { s with heap := s.heap.wr a d } := by
  obtain ⟨h1, h2, h3, h4⟩ := h.free a ha
  refine ⟨fun r hr => ?_, ?_, ?_, ?_⟩ <;> simp only [length_wr]
  · exact h.free r hr
  · rw [rd_wr _ _ _ _ h1, if_neg (Ne.symm h2)]; exact h.valid
  · rw [rd_wr _ _ _ _ h1, if_neg (Ne.symm h3)]; exact h.map2
  · rw [rd_wr _ _ _ _ h1, if_neg (Ne.symm h4)]; exact h.stale

/-- A new dict. -/
theorem new (h : Sound L R s) (d : Data) : Sound L (fun r => R r ∨ r = s.heap.length) { s with heap := (s.heap.new d).1 } := by
  refine ⟨fun r hr => ?_, ?_, ?_, ?_⟩ <;> simp only [length_new]
  · by_cases e : r = s.heap.length
    · subst e
      exact ⟨by omega, fun x => by have := h.valid.1; omega, fun x => by have := h.map2.1; omega, fun x => by have := h.stale.1; omega⟩
    · have := h.free r (by rcases hr with h | h | h | h | h | h <;> simp_all)
      exact ⟨by omega, this.2⟩
  · exact ⟨by have := h.valid.1; omega, by rw [rd_new _ _ _ h.valid.1]; exact h.valid.2⟩
  · exact ⟨by have := h.map2.1; omega, by rw [rd_new _ _ _ h.map2.1]; exact h.map2.2⟩
  · exact ⟨by have := h.stale.1; omega, by rw [rd_new _ _ _ h.stale.1]; exact h.stale.2⟩

/-- The stores to the attributes and to `maps` which do not concern the valid layer. -/
theorem move (h : Sound L R s) {a b e f : Nat} (ha : a = s.attrs.raw ∨ R a) (hb : b = s.map0 ∨ b = s.attrs.raw) (he : e = s.attrs.converted ∨ R e) (hf : f = s.map1 ∨ f = s.attrs.converted) :
    Sound L R { s with attrs := { s.attrs with raw := a, converted := e }, map0 := b, map1 := f } := by
  refine ⟨fun r hr => ?_, h.valid, h.map2, h.stale⟩
  simp only [] at hr ⊢
  refine h.free r ?_
  rcases hr with rfl | rfl | rfl | rfl | hr
  · rcases ha with h | h <;> simp [h]
  · rcases hb with h | h <;> simp [h]
  · rcases he with h | h <;> simp [h]
  · rcases hf with h | h <;> simp [h]
  · simp [hr]

end Sound

section
variable {L : Data → Prop} {R : Nat → Prop}

/-- Upholds the valid layer sound, whatever the schedule. -/
abbrev Upholds (L : Data → Prop) (R : Nat → Prop) (m : Steps (List Bool) α) (s : Cells) (Q : α → Cells → Prop) : Prop :=
  Post m s (fun a s' => Sound L R s' ∧ Q a s') (fun f s' => Sound L R s' ∧ f = .interrupt)

theorem keeps_writeAt {a : Nat} {s : Cells} (h : Sound L R s) (ha : a = s.attrs.raw ∨ a = s.map0 ∨ a = s.attrs.converted ∨ a = s.map1 ∨ R a) (l : List (Key × Val)) :
    Upholds L R (Steps.writeAt a l) s fun _ _ => True :=
  Post.writeAt l ⟨h.wr ha _, trivial⟩ fun _ _ _ => ⟨h.wr ha _, rfl⟩

theorem keeps_putUnsafe {a : Nat} {s : Cells} (h : Sound L R s) (ha : R a) : Upholds L R (Steps.putUnsafe a) s fun _ _ => True := by
  refine Post.seq (Post.store (Q := fun _ s' => Sound L R s') ?_ ⟨h, rfl⟩) fun _ s' hs => ?_
  · exact h.move (.inr ha) (.inl rfl) (.inl rfl) (.inl rfl)
  · exact Post.store ⟨hs.move (.inl rfl) (.inr rfl) (.inl rfl) (.inl rfl), trivial⟩ ⟨hs, rfl⟩

theorem keeps_putConverted {a : Nat} {s : Cells} (h : Sound L R s) (ha : R a) : Upholds L R (Steps.putConverted a) s fun _ _ => True := by
  refine Post.seq (Post.store (Q := fun _ s' => Sound L R s') ?_ ⟨h, rfl⟩) fun _ s' hs => ?_
  · exact h.move (.inl rfl) (.inl rfl) (.inr ha) (.inl rfl)
  · exact Post.store ⟨hs.move (.inl rfl) (.inl rfl) (.inl rfl) (.inr rfl), trivial⟩ ⟨hs, rfl⟩

/-- `self._data.valid = data` with a new dict. -/
theorem keeps_newValid {d : Data} {s : Cells} (h : Sound L R s) (hd : L d) :
    Upholds L R (do let a ← Steps.alloc d; Steps.putValid a) s fun _ _ => True := by
  refine Post.seq (Post.alloc (Q := fun a s' => a = s.heap.length ∧ s' = { s with heap := (s.heap.new d).1 }) ⟨rfl, rfl⟩ ⟨h, rfl⟩) ?_
  rintro a s' ⟨rfl, rfl⟩
  have h1 : Sound L R { s with heap := (s.heap.new d).1 } := (h.new d).weaken fun _ => Or.inl
  have hl := length_new s.heap d
  have hrd := rd_new_self s.heap d
  rw [addr_new] at hrd
  have h2 : Sound L R { s with heap := (s.heap.new d).1, attrs := { s.attrs with valid := s.heap.length } } := by
    refine ⟨fun r hr => ?_, ?_, h1.map2, h1.stale⟩
    · have := h.free r hr
      have h' := h1.free r hr
      exact ⟨h'.1, fun e => by simp only [] at e; omega, h'.2.2⟩
    · simp only []
      exact ⟨by omega, by rw [hrd]; exact hd⟩
  refine Post.seq (Post.store (Q := fun _ s' => s' = { s with heap := (s.heap.new d).1, attrs := { s.attrs with valid := s.heap.length } }) rfl ⟨h1, rfl⟩) ?_
  rintro _ s' rfl
  refine Post.store ⟨?_, trivial⟩ ⟨h2, rfl⟩
  refine ⟨fun r hr => ?_, h2.valid, h2.valid, h2.stale⟩
  have h' := h2.free r hr
  exact ⟨h'.1, h'.2.1, h'.2.1, h'.2.2.2⟩

theorem keeps_given {raw : Data} {s : Cells} (h : Sound L R s) :
    Post (Steps.given raw) s (fun r s' => Sound L (fun x => R x ∨ x = r) s') (fun f s' => Sound L R s' ∧ f = .interrupt) := by
  unfold Steps.given
  split
  · exact Post.look (h.add (.inr (.inr (.inl rfl))))
  · exact Post.alloc (h.new raw) ⟨h, rfl⟩

theorem keeps_takePending {r : Nat} {s : Cells} (h : Sound L (fun x => R x ∨ x = r) s) :
    Post (Steps.takePending r) s (fun r' s' => Sound L (fun x => R x ∨ x = r') s') (fun f s' => Sound L R s' ∧ f = .interrupt) := by
  unfold Steps.takePending
  refine Post.seq (Post.look (Q := fun _ s' => s' = s) rfl) ?_
  rintro p s' rfl
  split
  · exact Post.ret h
  · have h' : Sound L (fun x => R x ∨ x = s'.attrs.raw) s' := (h.add (.inl rfl)).weaken fun x hx => hx.imp .inl id
    refine Post.mono (Q := fun r' s'' => Sound L (fun x => R x ∨ x = s'.attrs.raw) s'' ∧ r' = s'.attrs.raw) (E := fun f s'' => Sound L (fun x => R x ∨ x = s'.attrs.raw) s'' ∧ f = .interrupt)
      ?_ (fun r' s'' hh => by rw [hh.2]; exact hh.1) fun _ s'' hh => ⟨hh.1.weaken fun _ => Or.inl, hh.2⟩
    refine Post.seq (Post.look (Q := fun a s'' => s'' = s' ∧ a = s'.attrs.raw) ⟨rfl, rfl⟩) ?_
    rintro u s'' ⟨rfl, rfl⟩
    refine Post.seq (Post.look (Q := fun _ s1 => s1 = s'') rfl) ?_
    rintro d s1 rfl
    refine Post.seq (keeps_writeAt h' (.inl rfl) d) ?_
    rintro _ s2 ⟨h2, _⟩
    refine Post.seq (Post.alloc (Q := fun a s3 => Sound L (fun x => (R x ∨ x = s1.attrs.raw) ∨ x = a) s3) (h2.new []) ⟨h2, rfl⟩) ?_
    intro e s3 h3
    refine Post.seq ((keeps_putUnsafe h3 (.inr rfl)).mono (fun _ _ x => x) fun _ _ x => ⟨x.1.weaken fun _ => Or.inl, x.2⟩) ?_
    rintro _ s4 ⟨h4, _⟩
    exact Post.ret ⟨h4.weaken fun _ => Or.inl, rfl⟩

theorem keeps_mutate (env : Env) (n : Nat) (ctx : Ctx) (c : ClassDef) {r : Nat} {s : Cells} (h : Sound L (fun x => R x ∨ x = r) s) :
    Upholds L (fun x => R x ∨ x = r) (Steps.mutate env n ctx c r) s fun _ _ => True := by
  unfold Steps.mutate
  refine Post.seq (Post.look (Q := fun _ s' => s' = s) rfl) ?_
  rintro p s rfl
  refine Post.seq (Post.look (Q := fun a s' => s' = s ∧ a = s.attrs.converted) ⟨rfl, rfl⟩) ?_
  rintro a s' ⟨rfl, rfl⟩
  refine Post.seq (keeps_writeAt h (.inr (.inr (.inl rfl))) _) ?_
  rintro _ s2 ⟨h2, _⟩
  refine Post.seq (Post.look (Q := fun _ s' => s' = s2) rfl) ?_
  rintro l s2 rfl
  exact keeps_writeAt h2 (.inr (.inr (.inr (.inr (.inr rfl))))) l

/-- What `_convert` returns or raises. -/
inductive Answered (env : Env) (n : Nat) (c : ClassDef) (trusted : Data) (validating : Bool) (r : Except Exc Data) : Prop
  | validated {k : Ctx} {content src : Data} (hv : validating = true) (hk : k.validate = true ∧ k.conv = .val ∧ k.trusted = trusted) (h : runValidate env n k c (.inst content) src = r)
  | imported (hv : validating = false)

theorem keeps_convert (env : Env) (n : Nat) (c : ClassDef) (raw : Data) (ctx : Ctx) {s : Cells} (h : Sound L R s) :
    Post (Steps.convert env n c raw ctx) s (fun d s' => Sound L R s' ∧ Answered env n c ctx.trusted ctx.validate (.ok d))
      (fun f s' => Sound L R s' ∧ ∀ e, f = .exc e → Answered env n c ctx.trusted ctx.validate (.error e)) := by
  have cut : ∀ f s', (Sound L R s' ∧ f = Fault.interrupt) → Sound L R s' ∧ ∀ e, f = .exc e → Answered env n c ctx.trusted ctx.validate (.error e) := by
    rintro f s' ⟨h, rfl⟩; exact ⟨h, nofun⟩
  unfold Steps.convert
  refine Post.seq (Post.look (Q := fun _ s' => s' = s) rfl) ?_
  rintro p s rfl
  refine Post.seq ((keeps_given h).mono (fun _ _ x => x) cut) ?_
  intro r s1 h1
  refine Post.seq ((keeps_takePending h1).mono (fun _ _ x => x) cut) ?_
  intro r' s2 h2
  refine Post.seq (Post.look (Q := fun _ s' => s' = s2) rfl) ?_
  rintro content s2 rfl
  refine Post.seq (Post.look (Q := fun _ s' => s' = s2) rfl) ?_
  rintro src s2 rfl
  have h2' : Sound L R s2 := h2.weaken fun _ => Or.inl
  cases hv : ctx.validate with
  | true =>
    simp only [if_true]
    rw [hv] at cut
    refine Post.seq ((keeps_mutate env n _ c h2).mono (fun _ _ x => x) fun f s' x => cut f s' ⟨x.1.weaken fun _ => Or.inl, x.2⟩) ?_
    rintro _ s3 ⟨h3, _⟩
    have h3' : Sound L R s3 := h3.weaken fun _ => Or.inl
    exact Post.ofR (fun a ha => ⟨h3', by refine Answered.validated rfl ?_ ha; exact ⟨rfl, rfl, rfl⟩⟩) (fun e he => ⟨h3', fun e' x => by cases x; refine Answered.validated rfl ?_ he; exact ⟨rfl, rfl, rfl⟩⟩) ⟨h3', nofun⟩
  | false =>
    simp only [Bool.false_eq_true, if_false]
    exact Post.ofR (fun a ha => ⟨h2', .imported rfl⟩) (fun e he => ⟨h2', fun e' x => .imported rfl⟩) ⟨h2', nofun⟩

end

section
variable {env : Env} {n : Nat} {c : ClassDef} {base : Data → Prop} {R : Nat → Prop}

theorem keeps_validate (ctx : Ctx) {s : Cells} (h : Sound (Legit env n c base) R s) :
    Post (Steps.validate env n c ctx) s (fun _ s' => Sound (Legit env n c base) R s') (fun _ s' => Sound (Legit env n c base) R s') := by
  unfold Steps.validate
  refine Post.seq (Post.look (Q := fun _ s' => s' = s) rfl) ?_
  rintro b s rfl
  split
  · exact Post.ret h
  · unfold Steps.validateBody
    have last : ∀ s', Sound (Legit env n c base) R s' → Post (do let a ← Steps.alloc []; Steps.putConverted a) s' (fun _ s'' => Sound (Legit env n c base) R s'')
        (fun _ s'' => Sound (Legit env n c base) R s'') := by
      intro s' h'
      refine Post.seq (Post.alloc (Q := fun a s3 => Sound (Legit env n c base) (fun x => R x ∨ x = a) s3) (h'.new []) h') ?_
      intro a s3 h3
      exact (keeps_putConverted h3 (.inr rfl)).mono (fun _ _ x => x.1.weaken fun _ => Or.inl) fun _ _ x => x.1.weaken fun _ => Or.inl
    refine Post.tryFinally (Q' := fun _ s' => Sound (Legit env n c base) R s') (E' := fun _ s' => Sound (Legit env n c base) R s') ?_ (fun _ s' h' => last s' h') fun _ s' h' => last s' h'
    refine Post.tryData (E' := fun f s' => Sound (Legit env n c base) R s' ∧ ∀ e, f = .exc e → Answered env n c [] true (.error e)) ?_ ?_ fun f s' _ x => x.1
    · refine Post.seq (keeps_convert env n c [] { ctx with validate := true, trusted := [] } h) ?_
      rintro d s1 ⟨h1, h2⟩
      refine (keeps_newValid h1 ?_).mono (fun _ _ x => x.1) ?_
      · cases h2 with
        | validated _ hk h => exact .validated hk h
        | imported hv => cases hv
      · rintro f s' ⟨x, rfl⟩; exact ⟨x, nofun⟩
    · rintro es p s1 ⟨h1, h2⟩
      have h2 := h2 _ rfl
      refine Post.seq (Post.look (Q := fun v s' => s' = s1 ∧ v = s1.heap.rd s1.attrs.valid) ⟨rfl, rfl⟩) ?_
      rintro v s' ⟨rfl, rfl⟩
      have hl : Legit env n c base ((s'.heap.rd s'.attrs.valid).update p) := by
        cases h2 with
        | validated _ hk h => exact .completed hk h1.valid.2 h
        | imported hv => cases hv
      have : Post ((do let a ← Steps.alloc ((s'.heap.rd s'.attrs.valid).update p); Steps.putValid a) >>= fun _ => (Steps.throw (.exc (.data es p)) : Steps (List Bool) Unit)) s'
          (fun _ s' => Sound (Legit env n c base) R s') (fun _ s' => Sound (Legit env n c base) R s') := by
        refine Post.seq ((keeps_newValid h1 hl).mono (fun _ _ x => x.1) fun _ _ x => x.1) ?_
        intro _ s2 h2
        exact Post.raise h2
      intro o
      have h3 := this o
      have assoc : ∀ (m : Steps (List Bool) Nat) (k : Nat → Steps (List Bool) Unit) (t : Steps (List Bool) Unit), ((m >>= k) >>= fun _ => t) s' o = (m >>= fun a => k a >>= fun _ => t) s' o := by
        intro m k t
        show Steps.bind (Steps.bind m k) _ s' o = Steps.bind m (fun a => Steps.bind (k a) _) s' o
        unfold Steps.bind
        generalize m s' o = x
        obtain ⟨x, y, z⟩ := x
        cases x <;> rfl
      rw [assoc] at h3
      exact h3

theorem keeps_importData (raw : Data) (ctx : Ctx) {s : Cells} (h : Sound (Legit env n c base) R s) :
    Post (Steps.importData env n c raw ctx) s (fun _ s' => Sound (Legit env n c base) R s') (fun _ s' => Sound (Legit env n c base) R s') := by
  unfold Steps.importData
  refine Post.seq (Post.look (Q := fun _ s' => s' = s) rfl) ?_
  rintro t s rfl
  refine Post.seq ((keeps_convert env n c raw { ctx with trusted := t } h).mono (fun _ _ x => x.1) fun _ _ x => x.1) ?_
  intro d s1 h1
  refine Post.seq (Post.look (Q := fun a s' => s' = s1 ∧ a = s1.attrs.converted) ⟨rfl, rfl⟩) ?_
  rintro a s' ⟨rfl, rfl⟩
  refine Post.seq ((keeps_writeAt h1 (.inr (.inr (.inl rfl))) d).mono (fun _ _ x => x.1) fun _ _ x => x.1) ?_
  intro _ s2 h2
  split
  · exact keeps_validate _ h2
  · exact Post.ret h2

theorem keeps_serialize (ectx : ECtx) {s : Cells} (h : Sound (Legit env n c base) R s) :
    Post (Steps.serialize env n c ectx) s (fun _ s' => Sound (Legit env n c base) R s') (fun _ s' => Sound (Legit env n c base) R s') := by
  unfold Steps.serialize
  refine Post.seq (Post.look (Q := fun a s' => s' = s ∧ a = s.attrs.converted) ⟨rfl, rfl⟩) ?_
  rintro a s ⟨rfl, rfl⟩
  have h' : Sound (Legit env n c base) (fun r => R r ∨ r = s.attrs.converted) s := h.add (.inr (.inr (.inl rfl)))
  generalize s.attrs.converted = saved at *
  refine Post.mono (Q := fun _ s' => Sound (Legit env n c base) (fun r => R r ∨ r = saved) s') (E := fun _ s' => Sound (Legit env n c base) (fun r => R r ∨ r = saved) s')
    ?_ (fun _ _ x => x.weaken fun _ => Or.inl) (fun _ _ x => x.weaken fun _ => Or.inl)
  refine Post.seq (Post.tryData (keeps_validate _ h') (fun es p s' x => Post.ret x) fun _ _ _ x => x) ?_
  intro _ s1 h1
  refine Post.seq (Post.look (Q := fun _ s' => s' = s1) rfl) ?_
  rintro content s1 rfl
  refine Post.seq (Post.ofR (Q := fun _ s' => s' = s1) (fun _ _ => rfl) (fun _ _ => h1) h1) ?_
  rintro d s1 rfl
  refine Post.seq ((keeps_putConverted h1 (.inr rfl)).mono (fun _ _ x => x.1) fun _ _ x => x.1) ?_
  intro _ s2 h2
  exact Post.ret h2

theorem keeps_setAttr (name : String) (v : Val) {s : Cells} (h : Sound (Legit env n c base) R s) :
    Post (Steps.setAttr env n c name v) s (fun _ s' => Sound (Legit env n c base) R s') (fun _ s' => Sound (Legit env n c base) R s') := by
  have wr : ∀ l, Post (do let a ← Steps.get (·.attrs.converted); Steps.writeAt a l) s (fun _ s' => Sound (Legit env n c base) R s') (fun _ s' => Sound (Legit env n c base) R s') := by
    intro l
    refine Post.seq (Post.look (Q := fun a s' => s' = s ∧ a = s.attrs.converted) ⟨rfl, rfl⟩) ?_
    rintro a s ⟨rfl, rfl⟩
    exact (keeps_writeAt h (.inr (.inr (.inl rfl))) l).mono (fun _ _ x => x.1) fun _ _ x => x.1
  unfold Steps.setAttr
  split
  · exact Post.raise h
  · split
    · split
      · exact Post.raise h
      · refine Post.seq (Post.ofR (Q := fun _ s' => s' = s) (fun _ _ => rfl) (fun _ _ => h) h) ?_
        rintro w s' rfl
        refine Post.seq (Post.ofR (Q := fun _ s'' => s'' = s') (fun _ _ => rfl) (fun _ _ => h) h) ?_
        rintro asg s' rfl
        exact wr asg
    · refine Post.seq (Post.ofR (Q := fun _ s' => s' = s) (fun _ _ => rfl) (fun _ _ => h) h) ?_
      rintro w s' rfl
      exact wr _

theorem keeps_delIn (k : Key) {a : Nat} {s : Cells} (h : Sound (Legit env n c base) R s) (ha : a = s.attrs.raw ∨ a = s.attrs.converted ∨ a = s.attrs.stale) :
    Post (Steps.delIn k a) s (fun _ s' => Sound (Legit env n c base) R s') (fun _ s' => Sound (Legit env n c base) R s') := by
  unfold Steps.delIn
  refine Post.seq (Post.look (Q := fun _ s' => s' = s) rfl) ?_
  rintro b s rfl
  split
  · refine Post.seq (Post.store (Q := fun _ s' => Sound (Legit env n c base) R s') ?_ h) fun _ s' hs => Post.ret hs
    rcases ha with ha | ha | ha
    · exact h.wr (.inl ha) _
    · exact h.wr (.inr (.inr (.inl ha))) _
    · subst ha
      refine ⟨fun r hr => ?_, ?_, ?_, ?_⟩ <;> simp only [length_wr]
      · exact h.free r hr
      · rw [rd_wr _ _ _ _ h.stale.1]
        refine ⟨h.valid.1, ?_⟩
        split
        · exact .deleted h.stale.2
        · exact h.valid.2
      · rw [rd_wr _ _ _ _ h.stale.1]
        refine ⟨h.map2.1, ?_⟩
        split
        · exact .deleted h.stale.2
        · exact h.map2.2
      · rw [rd_wr _ _ _ _ h.stale.1, if_pos rfl]
        exact ⟨h.stale.1, .deleted h.stale.2⟩
  · exact Post.ret h

theorem keeps_delAttr (name : String) {s : Cells} (h : Sound (Legit env n c base) R s) :
    Post (Steps.delAttr c name) s (fun _ s' => Sound (Legit env n c base) R s') (fun _ s' => Sound (Legit env n c base) R s') := by
  unfold Steps.delAttr
  split
  · exact Post.raise h
  · split
    · exact Post.raise h
    · unfold Steps.delete
      refine Post.seq (Post.look (Q := fun a s' => s' = s ∧ a = s.attrs.stale) ⟨rfl, rfl⟩) ?_
      rintro a s ⟨rfl, rfl⟩
      refine Post.seq (keeps_delIn _ h (.inr (.inr rfl))) ?_
      intro b1 s1 h1
      refine Post.seq (Post.look (Q := fun a s' => s' = s1 ∧ a = s1.attrs.converted) ⟨rfl, rfl⟩) ?_
      rintro a s1 ⟨rfl, rfl⟩
      refine Post.seq (keeps_delIn _ h1 (.inr (.inl rfl))) ?_
      intro b2 s2 h2
      refine Post.seq (Post.look (Q := fun a s' => s' = s2 ∧ a = s2.attrs.raw) ⟨rfl, rfl⟩) ?_
      rintro a s2 ⟨rfl, rfl⟩
      refine Post.seq (keeps_delIn _ h2 (.inl rfl)) ?_
      intro b3 s3 h3
      split
      · exact Post.ret h3
      · exact Post.raise h3

theorem keeps_op (x : Op) {s : Cells} (h : Sound (Legit env n c base) R s) :
    Post (Steps.op env n c x) s (fun _ s' => Sound (Legit env n c base) R s') (fun _ s' => Sound (Legit env n c base) R s') := by
  unfold Steps.op
  refine Post.seq ?_ fun _ s' hs => Post.tick hs hs
  cases x with
  | set name v => exact keeps_setAttr name v h
  | del name => exact keeps_delAttr name h
  | validate ctx => exact keeps_validate ctx h
  | importData raw ctx => exact keeps_importData raw ctx h
  | serialize ectx => exact Post.seq (keeps_serialize ectx h) fun _ s' hs => Post.ret hs

theorem keeps_after (x : Op) (o : List Bool) {s : Cells} (h : Sound (Legit env n c base) R s) : Sound (Legit env n c base) R (s.after env n c x o) := by
  unfold Cells.after
  have := keeps_op x h o
  generalize hr : Steps.op env n c x s o = r at *
  obtain ⟨a, s', o'⟩ := r
  cases a with
  | ok a => exact this.1 _ _ _ rfl
  | error f => exact this.2 _ _ _ rfl

theorem keeps_history (l : List (Op × List Bool)) : ∀ {s : Cells}, Sound (Legit env n c base) R s → Sound (Legit env n c base) R (s.history env n c l) := by
  induction l with
  | nil => intro s h; exact h
  | cons x l ih => intro s h; exact ih (keeps_after x.1 x.2 h)

end
end Verif
