import Verif.Core.Alias
import Verif.Samples

/-! # C92: instances do not share state -/
namespace Verif

/-! ## The specification: a world in which everything is a value -/

/-- A world in which the dicts of the program and the instances are values: nothing can be shared. -/
structure VWorld where
  dicts : List Data := []
  insts : List (ClassDef × Inst) := []

/-- The value of an argument. -/
def VWorld.arg (w : VWorld) : ArgSrc → Data
  | .none => []
  | .mine k => (w.dicts[k]?).getD []
  | .literal d => d

/-- A step changes the dict or the instance it is about and nothing else. -/
def VWorld.step (env : Env) (n : Nat) (w : VWorld) : AOp → VWorld
  | .mk d => { w with dicts := w.dicts ++ [d] }
  | .write k d => { w with dicts := w.dicts.set k d }
  | .new c raw trusted lazy_ ctx =>
    match instInit env n c (w.arg raw) (w.arg trusted) lazy_ ctx with
    | .ok I => { w with insts := w.insts ++ [(c, I)] }
    | .error _ => w
  | .call i op => { w with insts := w.insts.modify i fun p => (p.1, op.run env n p.1 p.2) }
  | .importMine i k ctx =>
    match w.dicts[k]? with
    | some d => { w with insts := w.insts.modify i fun p => (p.1, (Op.importData d ctx).run env n p.1 p.2) }
    | none => w

/-- A program. -/
def VWorld.run (env : Env) (n : Nat) (w : VWorld) (ops : List AOp) : VWorld := ops.foldl (VWorld.step env n) w

/-- The instance without addresses. -/
def HInst.value (h : DictHeap) (I : HInst) : Inst where
  raw := h.rd I.raw
  converted := h.rd I.converted
  valid := h.rd I.valid
  stale := if I.stale = I.valid then none else some (h.rd I.stale)

/-- The world without addresses. -/
def AWorld.value (w : AWorld) : VWorld where
  dicts := w.mine.map w.heap.rd
  insts := w.insts.map fun p => (p.1, p.2.value w.heap)

/-- No dict that the program goes on using is kept by an instance: lazy input and trusted data are not the program's own dicts. -/
def AOp.Clean : AOp → Prop
  | .new _ raw trusted lazy_ _ => (lazy_ = true → ∀ k, raw ≠ .mine k) ∧ ∀ k, trusted ≠ .mine k
  | _ => True

/-! ## The heap -/

namespace DictHeap

theorem length_wr (h : DictHeap) (a : Nat) (d : Data) : (h.wr a d).length = h.length := by simp [wr]

theorem rd_wr (h : DictHeap) (a b : Nat) (d : Data) (ha : a < h.length) : (h.wr a d).rd b = if b = a then d else h.rd b := by
  unfold rd wr
  by_cases e : b = a
  · subst e; simp [ha]
  · rw [if_neg e, List.getElem?_set_ne (fun x => e x.symm)]

theorem rd_new (h : DictHeap) (d : Data) (b : Nat) (hb : b < h.length) : (h.new d).1.rd b = h.rd b := by
  unfold rd new; simp [List.getElem?_append_left hb]

theorem rd_new_self (h : DictHeap) (d : Data) : (h.new d).1.rd (h.new d).2 = d := by
  unfold rd new; simp

theorem length_new (h : DictHeap) (d : Data) : (h.new d).1.length = h.length + 1 := by simp [new]

theorem addr_new (h : DictHeap) (d : Data) : (h.new d).2 = h.length := rfl

end DictHeap

open DictHeap

/-- The references of an instance exist, and only `_valid` and `__valid` may be the same dict. -/
structure HInst.Ok (h : DictHeap) (I : HInst) : Prop where
  raw : I.raw < h.length
  converted : I.converted < h.length
  valid : I.valid < h.length
  stale : I.stale < h.length
  rc : I.raw ≠ I.converted
  rv : I.raw ≠ I.valid
  rs : I.raw ≠ I.stale
  cv : I.converted ≠ I.valid
  cs : I.converted ≠ I.stale

/-- What a call on an instance may do to the heap: change the dicts of the instance and add new dicts. -/
structure HInst.Frame (h : DictHeap) (I : HInst) (h' : DictHeap) (J : HInst) : Prop where
  len : h.length ≤ h'.length
  old : ∀ a, a < h.length → a ≠ I.raw → a ≠ I.converted → a ≠ I.valid → a ≠ I.stale → h'.rd a = h.rd a
  raw : J.raw = I.raw ∨ h.length ≤ J.raw
  converted : J.converted = I.converted ∨ h.length ≤ J.converted
  valid : J.valid = I.valid ∨ h.length ≤ J.valid
  stale : J.stale = I.stale

namespace HInst

theorem Frame.refl (h : DictHeap) (I : HInst) : Frame h I h I := ⟨Nat.le_refl _, fun _ _ _ _ _ _ => rfl, .inl rfl, .inl rfl, .inl rfl, rfl⟩

theorem Frame.trans {h1 h2 h3 : DictHeap} {I J K : HInst} (f : Frame h1 I h2 J) (g : Frame h2 J h3 K) : Frame h1 I h3 K where
  len := Nat.le_trans f.len g.len
  old a ha h1' h2' h3' h4' := by
    have hl := Nat.lt_of_lt_of_le ha f.len
    rw [g.old a hl ?_ ?_ ?_ ?_, f.old a ha h1' h2' h3' h4']
    · rcases f.raw with e | e
      · rw [e]; exact h1'
      · omega
    · rcases f.converted with e | e
      · rw [e]; exact h2'
      · omega
    · rcases f.valid with e | e
      · rw [e]; exact h3'
      · omega
    · rw [f.stale]; exact h4'
  raw := by
    rcases g.raw with e | e
    · rw [e]; exact f.raw
    · right; exact Nat.le_trans f.len e
  converted := by
    rcases g.converted with e | e
    · rw [e]; exact f.converted
    · right; exact Nat.le_trans f.len e
  valid := by
    rcases g.valid with e | e
    · rw [e]; exact f.valid
    · right; exact Nat.le_trans f.len e
  stale := g.stale.trans f.stale

/-- Writing to the dict `_converted`. -/
theorem wr_converted {h : DictHeap} {I : HInst} (o : Ok h I) (d : Data) :
    Ok (h.wr I.converted d) I ∧ Frame h I (h.wr I.converted d) I ∧ I.value (h.wr I.converted d) = { I.value h with converted := d } := by
  refine ⟨⟨?_, ?_, ?_, ?_, o.rc, o.rv, o.rs, o.cv, o.cs⟩, ⟨?_, ?_, .inl rfl, .inl rfl, .inl rfl, rfl⟩, ?_⟩
  · rw [length_wr]; exact o.raw
  · rw [length_wr]; exact o.converted
  · rw [length_wr]; exact o.valid
  · rw [length_wr]; exact o.stale
  · exact Nat.le_of_eq (length_wr ..).symm
  · intro a _ _ hc _ _; rw [rd_wr _ _ _ _ o.converted, if_neg hc]
  · unfold value
    rw [rd_wr _ _ _ _ o.converted, rd_wr _ _ _ _ o.converted, rd_wr _ _ _ _ o.converted, rd_wr _ _ _ _ o.converted,
      if_neg o.rc, if_pos rfl, if_neg (Ne.symm o.cv), if_neg (Ne.symm o.cs)]

/-- Writing to a dict that does not belong to the instance any more. -/
theorem wr_raw_cell {h : DictHeap} {I : HInst} (o : Ok h I) (d : Data) :
    Ok (h.wr I.raw d) I ∧ Frame h I (h.wr I.raw d) I ∧ I.value (h.wr I.raw d) = { I.value h with raw := d } := by
  refine ⟨⟨?_, ?_, ?_, ?_, o.rc, o.rv, o.rs, o.cv, o.cs⟩, ⟨?_, ?_, .inl rfl, .inl rfl, .inl rfl, rfl⟩, ?_⟩
  · rw [length_wr]; exact o.raw
  · rw [length_wr]; exact o.converted
  · rw [length_wr]; exact o.valid
  · rw [length_wr]; exact o.stale
  · exact Nat.le_of_eq (length_wr ..).symm
  · intro a _ hc _ _ _; rw [rd_wr _ _ _ _ o.raw, if_neg hc]
  · unfold value
    rw [rd_wr _ _ _ _ o.raw, rd_wr _ _ _ _ o.raw, rd_wr _ _ _ _ o.raw, rd_wr _ _ _ _ o.raw,
      if_pos rfl, if_neg (Ne.symm o.rc), if_neg (Ne.symm o.rv), if_neg (Ne.symm o.rs)]

/-- Writing to a dict of somebody else. -/
theorem wr_other {h : DictHeap} {I : HInst} (o : Ok h I) (a : Nat) (ha : a < h.length) (d : Data)
    (h1 : a ≠ I.raw) (h2 : a ≠ I.converted) (h3 : a ≠ I.valid) (h4 : a ≠ I.stale) :
    Ok (h.wr a d) I ∧ I.value (h.wr a d) = I.value h := by
  refine ⟨⟨?_, ?_, ?_, ?_, o.rc, o.rv, o.rs, o.cv, o.cs⟩, ?_⟩
  · rw [length_wr]; exact o.raw
  · rw [length_wr]; exact o.converted
  · rw [length_wr]; exact o.valid
  · rw [length_wr]; exact o.stale
  · unfold value
    rw [rd_wr _ _ _ _ ha, rd_wr _ _ _ _ ha, rd_wr _ _ _ _ ha, rd_wr _ _ _ _ ha,
      if_neg (Ne.symm h1), if_neg (Ne.symm h2), if_neg (Ne.symm h3), if_neg (Ne.symm h4)]

/-- A new dict. -/
theorem new_other {h : DictHeap} {I : HInst} (o : Ok h I) (d : Data) :
    Ok (h.new d).1 I ∧ Frame h I (h.new d).1 I ∧ I.value (h.new d).1 = I.value h := by
  refine ⟨⟨?_, ?_, ?_, ?_, o.rc, o.rv, o.rs, o.cv, o.cs⟩, ⟨?_, ?_, .inl rfl, .inl rfl, .inl rfl, rfl⟩, ?_⟩
  · rw [length_new]; exact Nat.lt_succ_of_lt o.raw
  · rw [length_new]; exact Nat.lt_succ_of_lt o.converted
  · rw [length_new]; exact Nat.lt_succ_of_lt o.valid
  · rw [length_new]; exact Nat.lt_succ_of_lt o.stale
  · rw [length_new]; omega
  · intro a ha _ _ _ _; rw [rd_new _ _ _ ha]
  · unfold value
    rw [rd_new _ _ _ o.raw, rd_new _ _ _ o.converted, rd_new _ _ _ o.valid, rd_new _ _ _ o.stale]

theorem new_raw {h : DictHeap} {I : HInst} (o : Ok h I) (d : Data) :
    Ok (h.new d).1 { I with raw := (h.new d).2 } ∧ Frame h I (h.new d).1 { I with raw := (h.new d).2 } ∧
      HInst.value (h.new d).1 { I with raw := (h.new d).2 } = { I.value h with raw := d } := by
  have := o.raw; have := o.converted; have := o.valid; have := o.stale
  refine ⟨⟨?_, ?_, ?_, ?_, ?_, ?_, ?_, o.cv, o.cs⟩, ⟨?_, ?_, .inr (Nat.le_refl _), .inl rfl, .inl rfl, rfl⟩, ?_⟩
  all_goals try (simp only [length_new, addr_new]; omega)
  · intro a ha _ _ _ _; rw [rd_new _ _ _ ha]
  · unfold value
    simp only
    rw [rd_new_self, rd_new _ _ _ o.converted, rd_new _ _ _ o.valid, rd_new _ _ _ o.stale]

theorem new_converted {h : DictHeap} {I : HInst} (o : Ok h I) (d : Data) :
    Ok (h.new d).1 { I with converted := (h.new d).2 } ∧ Frame h I (h.new d).1 { I with converted := (h.new d).2 } ∧
      HInst.value (h.new d).1 { I with converted := (h.new d).2 } = { I.value h with converted := d } := by
  have := o.raw; have := o.converted; have := o.valid; have := o.stale
  refine ⟨⟨?_, ?_, ?_, ?_, ?_, o.rv, o.rs, ?_, ?_⟩, ⟨?_, ?_, .inl rfl, .inr (Nat.le_refl _), .inl rfl, rfl⟩, ?_⟩
  all_goals try (simp only [length_new, addr_new]; omega)
  · intro a ha _ _ _ _; rw [rd_new _ _ _ ha]
  · unfold value
    simp only
    rw [rd_new_self, rd_new _ _ _ o.raw, rd_new _ _ _ o.valid, rd_new _ _ _ o.stale]

theorem new_valid {h : DictHeap} {I : HInst} (o : Ok h I) (d : Data) :
    Ok (h.new d).1 { I with valid := (h.new d).2 } ∧ Frame h I (h.new d).1 { I with valid := (h.new d).2 } ∧
      HInst.value (h.new d).1 { I with valid := (h.new d).2 } = (I.value h).setValid d := by
  have := o.raw; have := o.converted; have := o.valid; have hs := o.stale
  refine ⟨⟨?_, ?_, ?_, ?_, o.rc, ?_, o.rs, ?_, o.cs⟩, ⟨?_, ?_, .inl rfl, .inl rfl, .inr (Nat.le_refl _), rfl⟩, ?_⟩
  all_goals try (simp only [length_new, addr_new]; omega)
  · intro a ha _ _ _ _; rw [rd_new _ _ _ ha]
  · unfold value Inst.setValid
    simp only
    rw [rd_new_self, rd_new _ _ _ o.raw, rd_new _ _ _ o.converted, rd_new _ _ _ o.stale]
    have : I.stale ≠ (h.new d).2 := by rw [addr_new]; omega
    rw [if_neg this]
    by_cases e : I.stale = I.valid
    · rw [if_pos e, e]; rfl
    · rw [if_neg e]; rfl

theorem content_eq (h : DictHeap) (I : HInst) : I.content h = (I.value h).content := rfl

/-- A step of an instance agrees with the step of the instance as a value. -/
structure Sim (h : DictHeap) (I : HInst) (p : DictHeap × HInst) (V : Inst) : Prop where
  ok : Ok p.1 p.2
  frame : Frame h I p.1 p.2
  value : p.2.value p.1 = V

theorem Sim.trans {h : DictHeap} {I : HInst} {p q : DictHeap × HInst} {V W : Inst} (s : Sim h I p V) (t : Sim p.1 p.2 q W) : Sim h I q W :=
  ⟨t.ok, s.frame.trans t.frame, t.value⟩

theorem Sim.rfl {h : DictHeap} {I : HInst} (o : Ok h I) : Sim h I (h, I) (I.value h) := ⟨o, Frame.refl h I, _root_.rfl⟩

theorem setAttr_sim (env : Env) (n : Nat) (c : ClassDef) {h : DictHeap} {I : HInst} (o : Ok h I) (name : String) (v : Val) :
    (I.setAttr env n c h name v).1 = (Verif.setAttr env n c (I.value h) name v).1 ∧
      Sim h I ((I.setAttr env n c h name v).2, I) (Verif.setAttr env n c (I.value h) name v).2 := by
  have key : ∀ d, Sim h I (h.wr I.converted d, I) { I.value h with converted := d } := fun d =>
    let t := wr_converted o d
    ⟨t.1, t.2.1, t.2.2⟩
  unfold HInst.setAttr Verif.setAttr
  cases c.field? name with
  | none => exact ⟨_root_.rfl, Sim.rfl o⟩
  | some fd =>
    dsimp only
    cases fd.fget with
    | none =>
      dsimp only
      cases preSet env n fd.field v with
      | error e => exact ⟨_root_.rfl, Sim.rfl o⟩
      | ok w => exact ⟨_root_.rfl, key _⟩
    | some g =>
      dsimp only
      cases fd.fset with
      | none => exact ⟨_root_.rfl, Sim.rfl o⟩
      | some f =>
        dsimp only
        cases preSet env n fd.field v with
        | error e => exact ⟨_root_.rfl, Sim.rfl o⟩
        | ok w =>
          dsimp only
          cases f w with
          | error e => exact ⟨_root_.rfl, Sim.rfl o⟩
          | ok asg => exact ⟨_root_.rfl, key _⟩

theorem erase_absent : ∀ (d : Data) (k : Key), d.has k = false → d.erase k = d
  | [], _, _ => _root_.rfl
  | (x, w) :: d, k, hk => by
    unfold Dict.erase
    by_cases e : x = k
    · subst e
      simp [Dict.has, Dict.get?] at hk
    · rw [if_neg e, erase_absent d k]
      simpa [Dict.has, Dict.get?, e] using hk

theorem delIn_rd (h : DictHeap) (k : Key) (a b : Nat) (ha : a < h.length) :
    (delIn h k a).2.rd b = if b = a then (h.rd a).erase k else h.rd b := by
  unfold delIn
  by_cases e : (h.rd a).has k = true
  · rw [if_pos e]; exact rd_wr _ _ _ _ ha
  · rw [if_neg e]
    by_cases f : b = a
    · rw [if_pos f, f, erase_absent _ _ (by simpa using e)]
    · rw [if_neg f]

theorem delIn_fst (h : DictHeap) (k : Key) (a : Nat) : (delIn h k a).1 = (h.rd a).has k := by
  unfold delIn
  by_cases e : (h.rd a).has k = true
  · rw [if_pos e, e]
  · rw [if_neg e]; simpa using e

theorem delIn_length (h : DictHeap) (k : Key) (a : Nat) : (delIn h k a).2.length = h.length := by
  unfold delIn
  split
  · exact length_wr ..
  · rfl

theorem delete_absent (V : Inst) (k : Key) (e : ((V.stale.getD V.valid).has k || V.converted.has k || V.raw.has k) = false) :
    ({ raw := V.raw.erase k
       converted := V.converted.erase k
       valid := if V.stale.isSome then V.valid else V.valid.erase k
       stale := V.stale.map (fun d => d.erase k) } : Inst) = V := by
  obtain ⟨r, c, v, s⟩ := V
  simp only [Bool.or_eq_false_iff] at e
  obtain ⟨⟨e1, e2⟩, e3⟩ := e
  cases s with
  | none =>
    simp only [Option.getD_none] at e1
    simp [erase_absent _ _ e1, erase_absent _ _ e2, erase_absent _ _ e3]
  | some d =>
    simp only [Option.getD_some] at e1
    simp [erase_absent _ _ e1, erase_absent _ _ e2, erase_absent _ _ e3]

theorem delete_sim {h : DictHeap} {I : HInst} (o : Ok h I) (k : Key) :
    (I.delete h k).1 = ((I.value h).delete k).1 ∧ Sim h I ((I.delete h k).2, I) ((I.value h).delete k).2 := by
  have l1 := delIn_length h k I.stale
  have l2 := delIn_length (delIn h k I.stale).2 k I.converted
  have l3 := delIn_length (delIn (delIn h k I.stale).2 k I.converted).2 k I.raw
  have r1 := fun b => delIn_rd h k I.stale b o.stale
  have r2 := fun b => delIn_rd (delIn h k I.stale).2 k I.converted b (by rw [l1]; exact o.converted)
  have r3 := fun b => delIn_rd (delIn (delIn h k I.stale).2 k I.converted).2 k I.raw b (by rw [l2, l1]; exact o.raw)
  have hold : (I.value h).stale.getD (I.value h).valid = h.rd I.stale := by
    unfold value
    by_cases e : I.stale = I.valid
    · simp [e]
    · simp [e]
  have hb : ((delIn h k I.stale).1 || (delIn (delIn h k I.stale).2 k I.converted).1 ||
      (delIn (delIn (delIn h k I.stale).2 k I.converted).2 k I.raw).1) =
      (((I.value h).stale.getD (I.value h).valid).has k || (I.value h).converted.has k || (I.value h).raw.has k) := by
    rw [hold, delIn_fst, delIn_fst, delIn_fst, r1, if_neg o.cs, r2, if_neg o.rc, r1, if_neg o.rs]
    rfl
  have hv : I.value (I.delete h k).2 =
      { raw := (I.value h).raw.erase k
        converted := (I.value h).converted.erase k
        valid := if (I.value h).stale.isSome then (I.value h).valid else (I.value h).valid.erase k
        stale := (I.value h).stale.map (fun d => d.erase k) } := by
    unfold delete
    simp only [value]
    rw [r3 I.raw, r3 I.converted, r3 I.valid, r3 I.stale, r2 I.raw, r2 I.converted, r2 I.valid, r2 I.stale, r1 I.raw, r1 I.converted,
      r1 I.valid, r1 I.stale, if_pos _root_.rfl, if_neg o.rc, if_neg o.rs, if_neg (Ne.symm o.rc), if_pos _root_.rfl, if_neg o.cs,
      if_neg (Ne.symm o.rv), if_neg (Ne.symm o.cv), if_neg (Ne.symm o.rs), if_neg (Ne.symm o.cs), if_pos _root_.rfl]
    by_cases e : I.stale = I.valid
    · simp [e]
    · simp [e, Ne.symm e]
  have hok : Ok (I.delete h k).2 I := by
    unfold delete
    refine ⟨?_, ?_, ?_, ?_, o.rc, o.rv, o.rs, o.cv, o.cs⟩
    all_goals (show _ < List.length _; rw [l3, l2, l1])
    · exact o.raw
    · exact o.converted
    · exact o.valid
    · exact o.stale
  have hf : Frame h I (I.delete h k).2 I := by
    unfold delete
    refine ⟨?_, ?_, .inl _root_.rfl, .inl _root_.rfl, .inl _root_.rfl, _root_.rfl⟩
    · exact Nat.le_of_eq (by rw [l3, l2, l1])
    · intro a _ n1 n2 _ n4
      show DictHeap.rd _ a = _
      rw [r3, if_neg n1, r2, if_neg n2, r1, if_neg n4]
  unfold Inst.delete
  by_cases e : (((I.value h).stale.getD (I.value h).valid).has k || (I.value h).converted.has k || (I.value h).raw.has k) = true
  · rw [if_pos e]
    refine ⟨?_, hok, hf, hv⟩
    unfold delete; simp only; rw [hb, if_pos e]
  · rw [if_neg e]
    refine ⟨?_, hok, hf, ?_⟩
    · unfold delete; simp only; rw [hb, if_neg e]
    · rw [hv]
      exact delete_absent _ k (by simpa using e)

theorem delAttr_sim (c : ClassDef) {h : DictHeap} {I : HInst} (o : Ok h I) (name : String) :
    (I.delAttr c h name).1 = (Verif.delAttr c (I.value h) name).1 ∧
      Sim h I ((I.delAttr c h name).2, I) (Verif.delAttr c (I.value h) name).2 := by
  unfold HInst.delAttr Verif.delAttr
  cases c.field? name with
  | none => exact ⟨_root_.rfl, Sim.rfl o⟩
  | some fd =>
    dsimp only
    by_cases e : fd.fget.isSome = true
    · rw [if_pos e, if_pos e]; exact ⟨_root_.rfl, Sim.rfl o⟩
    · rw [if_neg e, if_neg e]; exact delete_sim o _

/-- The instance and the input of the loop after `given` and `takePending`. -/
structure Prep (h : DictHeap) (I : HInst) (raw : Data) (q : DictHeap × Nat × HInst) : Prop where
  sim : Sim h I (q.1, q.2.2) { I.value h with raw := [] }
  src : q.1.rd q.2.1 = (I.value h).source raw
  lt : q.2.1 < q.1.length
  conv : q.2.2.converted = I.converted
  where_ : (q.2.1 = I.converted ∧ (raw.isEmpty && (I.value h).raw.isEmpty) = true) ∨
    (q.2.1 ≠ q.2.2.raw ∧ q.2.1 ≠ q.2.2.converted ∧ q.2.1 ≠ q.2.2.valid ∧ q.2.1 ≠ q.2.2.stale ∧
      (q.2.1 = I.raw ∨ h.length ≤ q.2.1) ∧ (raw.isEmpty && (I.value h).raw.isEmpty) = false)

theorem prep {h : DictHeap} {I : HInst} (o : Ok h I) (raw : Data) :
    Prep h I raw (I.takePending (I.given h raw).1 (I.given h raw).2) := by
  have g : Sim h I ((I.given h raw).1, I) (I.value h) ∧ (I.given h raw).2 < (I.given h raw).1.length ∧
      (I.given h raw).1.rd (I.given h raw).2 = (if raw.isEmpty then (I.value h).converted else raw) ∧
      (((I.given h raw).2 = I.converted ∧ raw.isEmpty = true) ∨ ((I.given h raw).2 = h.length ∧ raw.isEmpty = false)) := by
    unfold given
    by_cases e : raw.isEmpty = true
    · rw [if_pos e, if_pos e]
      exact ⟨Sim.rfl o, o.converted, _root_.rfl, .inl ⟨_root_.rfl, e⟩⟩
    · rw [if_neg e, if_neg e]
      have t := new_other o raw
      exact ⟨⟨t.1, t.2.1, t.2.2⟩, by rw [length_new, addr_new]; omega, rd_new_self .., .inr ⟨_root_.rfl, by simpa using e⟩⟩
  generalize hp : I.given h raw = p at g
  obtain ⟨gs, glt, grd, gw⟩ := g
  have hraw : p.1.rd I.raw = (I.value h).raw := by
    have := gs.value
    rw [← this]; rfl
  unfold takePending
  by_cases e : (p.1.rd I.raw).isEmpty = true
  · rw [if_pos e]
    have e' : (I.value h).raw = [] := by rw [← hraw]; simpa using e
    refine ⟨⟨gs.ok, gs.frame, ?_⟩, ?_, glt, _root_.rfl, ?_⟩
    · rw [gs.value, ← e']
    · rw [grd]; unfold Inst.source; simp [e']
    · rcases gw with ⟨a, b⟩ | ⟨a, b⟩
      · left; exact ⟨a, by simp [b, e']⟩
      · right
        have := o.raw; have := o.converted; have := o.valid; have := o.stale
        refine ⟨?_, ?_, ?_, ?_, .inr (by show _ ≤ p.2; omega), by simp [b]⟩ <;> (dsimp only; omega)
  · rw [if_neg e]
    have e' : (I.value h).raw.isEmpty = false := by rw [← hraw]; simpa using e
    have w := wr_raw_cell gs.ok ((p.1.rd I.raw).update (p.1.rd p.2))
    have t := new_raw w.1 []
    have hl : (p.1.wr I.raw ((p.1.rd I.raw).update (p.1.rd p.2))).length = p.1.length := length_wr ..
    refine ⟨⟨t.1, gs.frame.trans (w.2.1.trans t.2.1), ?_⟩, ?_, ?_, _root_.rfl, .inr ?_⟩
    · show HInst.value _ _ = _
      rw [t.2.2, w.2.2, gs.value]
    · show DictHeap.rd _ I.raw = _
      rw [rd_new _ _ _ w.1.raw, rd_wr _ _ _ _ gs.ok.raw, if_pos _root_.rfl, grd, hraw]
      unfold Inst.source
      simp [e']
    · show I.raw < List.length _
      rw [length_new]; exact Nat.lt_succ_of_lt w.1.raw
    · have := gs.ok.raw
      refine ⟨?_, o.rc, o.rv, o.rs, .inl _root_.rfl, by simp [e']⟩
      dsimp only
      rw [addr_new, hl]; exact Nat.ne_of_lt this

theorem convert_sim (env : Env) (n : Nat) (c : ClassDef) {h : DictHeap} {I : HInst} (o : Ok h I) (raw : Data) (ctx : Ctx) :
    (I.convert env n c h raw ctx).1 = (instConvert env n c (I.value h) raw ctx).1 ∧
      Sim h I (I.convert env n c h raw ctx).2 (instConvert env n c (I.value h) raw ctx).2 ∧
      (I.convert env n c h raw ctx).2.2.converted = I.converted := by
  have P := prep o raw
  have hctx : I.convertCtx h ctx = (I.value h).convertCtx ctx := rfl
  unfold convert instConvert
  simp only
  rw [hctx]
  generalize I.takePending (I.given h raw).1 (I.given h raw).2 = q at P ⊢
  obtain ⟨h1, r, J⟩ := q
  obtain ⟨sim, src, lt, conv, wh⟩ := P
  simp only at sim src lt conv wh ⊢
  have hc : J.content h1 = ({ I.value h with raw := [] } : Inst).content := by rw [content_eq, sim.value]
  rw [hc, src]
  by_cases hv : ctx.validate = true
  · rw [if_pos hv, if_pos hv]
    refine ⟨_root_.rfl, ?_, conv⟩
    have hv' : ((I.value h).convertCtx ctx).validate = true := hv
    unfold Inst.afterConvert
    simp only
    rw [if_pos hv']
    unfold mutate
    simp only
    have w := wr_converted sim.ok (setterWrites env n ((I.value h).convertCtx ctx) c (h1.rd r) (h1.rd J.converted))
    have hJc : h1.rd J.converted = (I.value h).converted := by
      have := sim.value
      have := congrArg Inst.converted this
      exact this
    rw [hJc, src] at w ⊢
    generalize setterWrites env n ((I.value h).convertCtx ctx) c ((I.value h).source raw) (I.value h).converted = sw at w ⊢
    rw [sim.value] at w
    have hcont : J.content (h1.wr J.converted sw) = ({ I.value h with raw := [], converted := sw } : Inst).content := by
      rw [content_eq, w.2.2]
    rw [hcont]
    rcases wh with ⟨a, b⟩ | ⟨a1, a2, a3, a4, a5, b⟩
    · rw [if_pos b]
      have a' : r = J.converted := by rw [a, conv]
      subst a'
      have w2 := wr_converted w.1 (((h1.wr J.converted sw).rd J.converted).update (copied env n ((I.value h).convertCtx ctx) c ((I.value h).source raw) ({ I.value h with raw := [], converted := sw } : Inst).content))
      refine ⟨w2.1, sim.frame.trans (w.2.1.trans w2.2.1), ?_⟩
      show J.value _ = _
      rw [w2.2.2, w.2.2, rd_wr _ _ _ _ sim.ok.converted, if_pos _root_.rfl]
    · rw [if_neg (by rw [b]; simp)]
      have hl : r < (h1.wr J.converted sw).length := by rw [length_wr]; exact lt
      have w2 := wr_other w.1 r hl (((h1.wr J.converted sw).rd r).update (copied env n ((I.value h).convertCtx ctx) c ((I.value h).source raw) ({ I.value h with raw := [], converted := sw } : Inst).content)) a1 a2 a3 a4
      refine ⟨w2.1, ?_, ?_⟩
      · have f := sim.frame.trans w.2.1
        refine ⟨?_, ?_, f.raw, f.converted, f.valid, f.stale⟩
        · show _ ≤ List.length _
          rw [length_wr]; exact f.len
        · intro x hx n1 n2 n3 n4
          show DictHeap.rd _ x = _
          rw [rd_wr _ _ _ _ hl, if_neg, f.old x hx n1 n2 n3 n4]
          rintro rfl
          rcases a5 with a5 | a5
          · exact n1 a5
          · omega
      · show J.value _ = _
        rw [w2.2, w.2.2]
  · rw [if_neg hv, if_neg hv]
    refine ⟨_root_.rfl, ?_, conv⟩
    have hv' : ¬ ((I.value h).convertCtx ctx).validate = true := hv
    unfold Inst.afterConvert
    simp only
    rw [if_neg hv']
    exact sim

theorem setValid_clear_sim {h : DictHeap} {I : HInst} (o : Ok h I) (d : Data) :
    Sim h I ((I.setValid h d).2.clear (I.setValid h d).1) { (I.value h).setValid d with converted := [] } := by
  have t := new_valid o d
  have t2 := new_converted t.1 []
  unfold clear setValid
  dsimp only
  exact ⟨t2.1, t.2.1.trans t2.2.1, by rw [t2.2.2, t.2.2]⟩

theorem clear_sim {h : DictHeap} {I : HInst} (o : Ok h I) : Sim h I (I.clear h) { I.value h with converted := [] } := by
  have t2 := new_converted o []
  exact ⟨t2.1, t2.2.1, t2.2.2⟩

/-- New dicts do not change old ones. -/
theorem setValid_clear_rd (h : DictHeap) (I : HInst) (d : Data) (a : Nat) (ha : a < h.length) :
    ((I.setValid h d).2.clear (I.setValid h d).1).1.rd a = h.rd a := by
  unfold clear setValid
  dsimp only
  rw [rd_new _ _ _ (by rw [length_new]; omega), rd_new _ _ _ ha]

theorem clear_rd (h : DictHeap) (I : HInst) (a : Nat) (ha : a < h.length) : (I.clear h).1.rd a = h.rd a := rd_new _ _ _ ha

theorem validate_sim (env : Env) (n : Nat) (c : ClassDef) {h : DictHeap} {I : HInst} (o : Ok h I) (ctx : Ctx) :
    (I.validate env n c h ctx).1 = (instValidate env n c (I.value h) ctx).1 ∧
      Sim h I (I.validate env n c h ctx).2 (instValidate env n c (I.value h) ctx).2 := by
  unfold validate instValidate
  by_cases e : ((h.rd I.converted).isEmpty && ctx.partial_) = true
  · rw [if_pos e, if_pos (show ((I.value h).converted.isEmpty && ctx.partial_) = true from e)]
    exact ⟨_root_.rfl, Sim.rfl o⟩
  · rw [if_neg e, if_neg (show ¬ ((I.value h).converted.isEmpty && ctx.partial_) = true from e)]
    have s := convert_sim env n c o [] { ctx with validate := true, trusted := [] }
    generalize I.convert env n c h [] { ctx with validate := true, trusted := [] } = x at s ⊢
    generalize instConvert env n c (I.value h) [] { ctx with validate := true, trusted := [] } = y at s ⊢
    obtain ⟨x, h1, J⟩ := x
    obtain ⟨y, V⟩ := y
    obtain ⟨s1, s2, -⟩ := s
    dsimp only at s1 s2
    subst s1
    have hV := s2.value
    dsimp only at hV
    subst hV
    have k := fun d => setValid_clear_sim s2.ok d
    have k2 := clear_sim s2.ok
    have hv : (J.value h1).valid = h1.rd J.valid := _root_.rfl
    cases x with
    | ok d => exact ⟨_root_.rfl, s2.trans (k d)⟩
    | error x =>
      cases x with
      | data es p => exact ⟨_root_.rfl, s2.trans (k _)⟩
      | field _ _ => exact ⟨_root_.rfl, s2.trans k2⟩
      | compound _ => exact ⟨_root_.rfl, s2.trans k2⟩
      | other _ => exact ⟨_root_.rfl, s2.trans k2⟩
      | fuel => exact ⟨_root_.rfl, s2.trans k2⟩

/-- After a validation that was not skipped, the old dict `_converted` holds what `_convert` left in it. -/
theorem validate_old (env : Env) (n : Nat) (c : ClassDef) {h : DictHeap} {I : HInst} (o : Ok h I) (ctx : Ctx) (hp : ctx.partial_ = false) :
    I.converted < (I.validate env n c h ctx).2.1.length ∧
    (I.validate env n c h ctx).2.1.rd I.converted =
      (instConvert env n c (I.value h) [] { ctx with validate := true, trusted := [] }).2.converted := by
  unfold validate
  rw [if_neg (by rw [hp]; simp)]
  have s := convert_sim env n c o [] { ctx with validate := true, trusted := [] }
  generalize I.convert env n c h [] { ctx with validate := true, trusted := [] } = x at s ⊢
  generalize instConvert env n c (I.value h) [] { ctx with validate := true, trusted := [] } = y at s ⊢
  obtain ⟨x, h1, J⟩ := x
  obtain ⟨y, V⟩ := y
  obtain ⟨-, s2, s3⟩ := s
  dsimp only at s2 s3 ⊢
  have hV := s2.value
  dsimp only at hV
  subst hV
  have hlt : I.converted < h1.length := by rw [← s3]; exact s2.ok.converted
  have hr : h1.rd I.converted = (J.value h1).converted := by rw [← s3]; rfl
  have l1 : ∀ d, I.converted < ((J.setValid h1 d).2.clear (J.setValid h1 d).1).1.length := fun d =>
    Nat.lt_of_lt_of_le hlt (setValid_clear_sim s2.ok d).frame.len
  have l2 : I.converted < (J.clear h1).1.length := Nat.lt_of_lt_of_le hlt (clear_sim s2.ok).frame.len
  cases x with
  | ok d => exact ⟨l1 d, by rw [← hr]; exact setValid_clear_rd _ _ _ _ hlt⟩
  | error x =>
    cases x with
    | data es p => exact ⟨l1 _, by rw [← hr]; exact setValid_clear_rd _ _ _ _ hlt⟩
    | field _ _ => exact ⟨l2, by rw [← hr]; exact clear_rd _ _ _ hlt⟩
    | compound _ => exact ⟨l2, by rw [← hr]; exact clear_rd _ _ _ hlt⟩
    | other _ => exact ⟨l2, by rw [← hr]; exact clear_rd _ _ _ hlt⟩
    | fuel => exact ⟨l2, by rw [← hr]; exact clear_rd _ _ _ hlt⟩

theorem importData_sim (env : Env) (n : Nat) (c : ClassDef) {h : DictHeap} {I : HInst} (o : Ok h I) (raw : Data) (ctx : Ctx) :
    (I.importData env n c h raw ctx).1 = (instImport env n c (I.value h) raw ctx).1 ∧
      Sim h I (I.importData env n c h raw ctx).2 (instImport env n c (I.value h) raw ctx).2 := by
  unfold importData instImport
  have s := convert_sim env n c o raw { ctx with trusted := c.view (I.content h) }
  rw [show I.content h = (I.value h).content from _root_.rfl] at s ⊢
  generalize I.convert env n c h raw { ctx with trusted := c.view (I.value h).content } = x at s ⊢
  generalize instConvert env n c (I.value h) raw { ctx with trusted := c.view (I.value h).content } = y at s ⊢
  obtain ⟨x, h1, J⟩ := x
  obtain ⟨y, V⟩ := y
  obtain ⟨s1, s2, -⟩ := s
  dsimp only at s1 s2
  subst s1
  have hV := s2.value
  dsimp only at hV
  subst hV
  cases x with
  | error e => exact ⟨_root_.rfl, s2⟩
  | ok d =>
    dsimp only
    have w := wr_converted s2.ok ((h1.rd J.converted).update d)
    have sw : Sim h1 J (h1.wr J.converted ((h1.rd J.converted).update d), J) { J.value h1 with converted := (J.value h1).converted.update d } :=
      ⟨w.1, w.2.1, w.2.2⟩
    by_cases hv : ctx.validate = true
    · rw [if_pos hv, if_pos hv]
      have t := validate_sim env n c w.1 { convert := false }
      have e : J.value (h1.wr J.converted ((h1.rd J.converted).update d)) = { J.value h1 with converted := (J.value h1).converted.update d } := w.2.2
      dsimp only at t
      rw [e] at t
      exact ⟨t.1, s2.trans (sw.trans t.2)⟩
    · rw [if_neg hv, if_neg hv]
      exact ⟨_root_.rfl, s2.trans sw⟩

theorem serialize_sim (env : Env) (n : Nat) (c : ClassDef) {h : DictHeap} {I : HInst} (o : Ok h I) (ectx : ECtx) :
    (I.serialize env n c h ectx).1 = (instSerialize env n c (I.value h) ectx).1 ∧
      Sim h I (I.serialize env n c h ectx).2 (instSerialize env n c (I.value h) ectx).2 := by
  unfold serialize instSerialize
  have s := validate_sim env n c o { defaults := true, validate := true }
  have old := validate_old env n c o { defaults := true, validate := true } _root_.rfl
  have hsv : (instConvert env n c (I.value h) [] { ({ defaults := true, validate := true } : Ctx) with validate := true, trusted := [] }).2.converted =
      ((I.value h).afterConvert env n ((I.value h).convertCtx { defaults := true, validate := true }) c []).converted := _root_.rfl
  rw [hsv] at old
  dsimp only
  generalize ((I.value h).afterConvert env n ((I.value h).convertCtx { defaults := true, validate := true }) c []).converted = saved at old ⊢
  generalize I.validate env n c h { defaults := true, validate := true } = x at s old ⊢
  generalize instValidate env n c (I.value h) { defaults := true, validate := true } = y at s ⊢
  obtain ⟨x, h1, J⟩ := x
  obtain ⟨y, V⟩ := y
  obtain ⟨s1, s2⟩ := s
  dsimp only at s1 s2 old
  subst s1
  have hV := s2.value
  dsimp only at hV
  subst hV
  have hI := o.converted
  have back : Sim h I (h1, { J with converted := I.converted }) { J.value h1 with converted := saved } := by
    have f := s2.frame
    have ok := s2.ok
    dsimp only at f ok
    have k1 : J.raw ≠ I.converted := by
      rcases f.raw with e | e
      · rw [e]; exact o.rc
      · omega
    have k2 : I.converted ≠ J.valid := by
      rcases f.valid with e | e
      · rw [e]; exact o.cv
      · omega
    have k3 : I.converted ≠ J.stale := by rw [f.stale]; exact o.cs
    refine ⟨⟨ok.raw, old.1, ok.valid, ok.stale, k1, ok.rv, ok.rs, k2, k3⟩, ⟨f.len, f.old, f.raw, .inl _root_.rfl, f.valid, f.stale⟩, ?_⟩
    unfold value
    dsimp only
    rw [old.2]
  have step : ∀ x : R Data, runExport env n ectx c (.inst (J.content h1)) = x →
      (match x with
        | .error e => ((.error e : R Data), h1, J)
        | .ok d => (.ok d, h1, { J with converted := I.converted })).1 =
      (match x with
        | .error e => ((.error e : R Data), J.value h1)
        | .ok d => (.ok d, { J.value h1 with converted := saved })).1 ∧
      Sim h I (match x with
        | .error e => ((.error e : R Data), h1, J)
        | .ok d => (.ok d, h1, { J with converted := I.converted })).2
      (match x with
        | .error e => ((.error e : R Data), J.value h1)
        | .ok d => (.ok d, { J.value h1 with converted := saved })).2 := by
    intro x _
    cases x with
    | error e => exact ⟨_root_.rfl, s2⟩
    | ok d => exact ⟨_root_.rfl, back⟩
  cases x with
  | ok u => exact step _ _root_.rfl
  | error x =>
    cases x with
    | data es p => exact step _ _root_.rfl
    | field _ _ => exact ⟨_root_.rfl, s2⟩
    | compound _ => exact ⟨_root_.rfl, s2⟩
    | other _ => exact ⟨_root_.rfl, s2⟩
    | fuel => exact ⟨_root_.rfl, s2⟩

theorem run_sim (env : Env) (n : Nat) (c : ClassDef) {h : DictHeap} {I : HInst} (o : Ok h I) (op : Op) :
    Sim h I (I.run env n c h op) (op.run env n c (I.value h)) := by
  cases op with
  | set name v => exact (setAttr_sim env n c o name v).2
  | del name => exact (delAttr_sim c o name).2
  | validate ctx => exact (validate_sim env n c o ctx).2
  | importData raw ctx => exact (importData_sim env n c o raw ctx).2
  | serialize ectx => exact (serialize_sim env n c o ectx).2

/-- A dict of the instance. -/
def Has (I : HInst) (a : Nat) : Prop := a = I.raw ∨ a = I.converted ∨ a = I.valid ∨ a = I.stale

theorem Frame.has {h h' : DictHeap} {I J : HInst} (f : Frame h I h' J) {a : Nat} (ha : J.Has a) : I.Has a ∨ h.length ≤ a := by
  rcases ha with e | e | e | e
  · rcases f.raw with g | g
    · exact .inl (.inl (e.trans g))
    · exact .inr (by omega)
  · rcases f.converted with g | g
    · exact .inl (.inr (.inl (e.trans g)))
    · exact .inr (by omega)
  · rcases f.valid with g | g
    · exact .inl (.inr (.inr (.inl (e.trans g))))
    · exact .inr (by omega)
  · exact .inl (.inr (.inr (.inr (e.trans f.stale))))

theorem Frame.keeps {h h' : DictHeap} {I J : HInst} (f : Frame h I h' J) {a : Nat} (ha : a < h.length) (hn : ¬ I.Has a) : h'.rd a = h.rd a :=
  f.old a ha (fun e => hn (.inl e)) (fun e => hn (.inr (.inl e))) (fun e => hn (.inr (.inr (.inl e)))) (fun e => hn (.inr (.inr (.inr e))))

theorem Ok.lt {h : DictHeap} {I : HInst} (o : Ok h I) {a : Nat} (ha : I.Has a) : a < h.length := by
  rcases ha with e | e | e | e
  · rw [e]; exact o.raw
  · rw [e]; exact o.converted
  · rw [e]; exact o.valid
  · rw [e]; exact o.stale

/-- A heap that agrees on the dicts of an instance. -/
theorem value_congr {h h' : DictHeap} {I : HInst} (o : Ok h I) (hl : h.length ≤ h'.length) (e : ∀ a, I.Has a → h'.rd a = h.rd a) :
    Ok h' I ∧ I.value h' = I.value h := by
  refine ⟨⟨?_, ?_, ?_, ?_, o.rc, o.rv, o.rs, o.cv, o.cs⟩, ?_⟩
  · exact Nat.lt_of_lt_of_le o.raw hl
  · exact Nat.lt_of_lt_of_le o.converted hl
  · exact Nat.lt_of_lt_of_le o.valid hl
  · exact Nat.lt_of_lt_of_le o.stale hl
  · unfold value
    rw [e _ (.inl _root_.rfl), e _ (.inr (.inl _root_.rfl)), e _ (.inr (.inr (.inl _root_.rfl))), e _ (.inr (.inr (.inr _root_.rfl)))]

/-- What the constructor does: the outcome is that of the constructor on values, and the dicts that existed are not changed and do not become part of the
instance, except a lazy input and the trusted data. -/
structure InitSpec (h : DictHeap) (raw trusted : Option Nat) (lazy_ : Bool) (p : R HInst × DictHeap) (V : R Inst) : Prop where
  len : h.length ≤ p.2.length
  old : ∀ a, a < h.length → (lazy_ = true → raw ≠ some a) → trusted ≠ some a → p.2.rd a = h.rd a
  value : V = (match p.1 with | .ok I => .ok (I.value p.2) | .error e => .error e)
  ok : ∀ I, p.1 = .ok I → Ok p.2 I
  fresh : ∀ I, p.1 = .ok I → ∀ a, a < h.length → (lazy_ = true → raw ≠ some a) → trusted ≠ some a → ¬ I.Has a

/-- The content of an optional dict. -/
def optRd (h : DictHeap) (a : Option Nat) : Data := (a.map h.rd).getD []

theorem keep_spec (h : DictHeap) (a : Option Nat) (ha : ∀ x, a = some x → x < h.length) :
    h.length ≤ (keep h a).1.length ∧ (keep h a).2 < (keep h a).1.length ∧ (keep h a).1.rd (keep h a).2 = optRd h a ∧
      (∀ x, x < h.length → (keep h a).1.rd x = h.rd x) ∧ (a = some (keep h a).2 ∨ (keep h a).2 = h.length) := by
  cases a with
  | none =>
    refine ⟨?_, ?_, rd_new_self .., fun x hx => rd_new _ _ _ hx, .inr _root_.rfl⟩
    · show _ ≤ (h.new []).1.length
      rw [length_new]; omega
    · show _ < (h.new []).1.length
      rw [length_new]; exact Nat.lt_succ_self _
  | some x => exact ⟨Nat.le_refl _, ha x _root_.rfl, _root_.rfl, fun _ _ => _root_.rfl, .inl _root_.rfl⟩

theorem init_spec (env : Env) (n : Nat) (c : ClassDef) (h : DictHeap) (raw trusted : Option Nat) (lazy_ : Bool) (ctx : Ctx)
    (hr : ∀ a, raw = some a → a < h.length) (ht : ∀ a, trusted = some a → a < h.length)
    (hne : lazy_ = true → ∀ a, raw = some a → trusted ≠ some a) :
    InitSpec h raw trusted lazy_ (init env n c h raw trusted lazy_ ctx) (instInit env n c (optRd h raw) (optRd h trusted) lazy_ ctx) := by
  unfold init instInit
  by_cases hl : lazy_ = true
  · rw [if_pos hl, if_pos hl]
    dsimp only
    obtain ⟨a1, a2, a3, a4, a5⟩ := keep_spec h raw hr
    generalize keep h raw = p at a1 a2 a3 a4 a5 ⊢
    have b1 : (p.1.new []).1.length = p.1.length + 1 := length_new ..
    have b3 : (p.1.new []).2 = p.1.length := _root_.rfl
    have b2 := rd_new_self p.1 []
    have b4 := fun x hx => rd_new p.1 [] x hx
    generalize p.1.new [] = q at b1 b2 b3 b4 ⊢
    have ht' : ∀ x, trusted = some x → x < q.1.length := fun x hx => by have := ht x hx; omega
    obtain ⟨c1, c2, c3, c4, c5⟩ := keep_spec q.1 trusted ht'
    have ho : optRd q.1 trusted = optRd h trusted := by
      cases trusted with
      | none => rfl
      | some x =>
        have := ht x _root_.rfl
        show q.1.rd x = h.rd x
        rw [b4 x (by omega), a4 x this]
    generalize keep q.1 trusted = t at c1 c2 c3 c4 c5 ⊢
    have npt : p.2 ≠ t.2 := by
      intro e
      rcases c5 with c5 | c5
      · rcases a5 with a5 | a5
        · exact hne hl _ a5 (by rw [e]; exact c5)
        · have := ht _ c5; omega
      · omega
    have nqt : q.2 ≠ t.2 := by
      intro e
      rcases c5 with c5 | c5
      · have := ht _ c5; omega
      · omega
    have ok : Ok t.1 ⟨p.2, q.2, t.2, t.2⟩ := by
      refine ⟨?_, ?_, c2, c2, ?_, npt, npt, nqt, nqt⟩
      · show p.2 < _; omega
      · show q.2 < _; omega
      · show p.2 ≠ q.2; omega
    refine ⟨by show _ ≤ t.1.length; omega, ?_, ?_, ?_, ?_⟩
    · intro a ha _ _
      show t.1.rd a = _
      rw [c4 a (by omega), b4 a (by omega), a4 a ha]
    · dsimp only [value]
      rw [c3, ho, c4 p.2 (by omega), b4 p.2 a2, a3, c4 q.2 (by omega), b2, if_pos _root_.rfl]
    · intro I hI; cases hI; exact ok
    · intro I hI a ha h1 h2 hh
      cases hI
      rcases hh with e | e | e | e
      · change a = p.2 at e
        rcases a5 with a5 | a5
        · exact h1 hl (by rw [e]; exact a5)
        · omega
      · change a = q.2 at e; omega
      · change a = t.2 at e
        rcases c5 with c5 | c5
        · exact h2 (by rw [e]; exact c5)
        · omega
      · change a = t.2 at e
        rcases c5 with c5 | c5
        · exact h2 (by rw [e]; exact c5)
        · omega
  · rw [if_neg hl, if_neg hl]
    dsimp only
    have a1 : (h.new []).1.length = h.length + 1 := length_new ..
    have a2 : (h.new []).2 = h.length := _root_.rfl
    have a3 := rd_new_self h []
    have a4 := fun x hx => rd_new h [] x hx
    generalize h.new [] = p at a1 a2 a3 a4 ⊢
    have b1 : (p.1.new []).1.length = p.1.length + 1 := length_new ..
    have b3 : (p.1.new []).2 = p.1.length := _root_.rfl
    have b2 := rd_new_self p.1 []
    have b4 := fun x hx => rd_new p.1 [] x hx
    generalize p.1.new [] = q at b1 b2 b3 b4 ⊢
    have ht' : ∀ x, trusted = some x → x < q.1.length := fun x hx => by have := ht x hx; omega
    obtain ⟨c1, c2, c3, c4, c5⟩ := keep_spec q.1 trusted ht'
    have ho : optRd q.1 trusted = optRd h trusted := by
      cases trusted with
      | none => rfl
      | some x =>
        have := ht x _root_.rfl
        show q.1.rd x = h.rd x
        rw [b4 x (by omega), a4 x this]
    generalize keep q.1 trusted = t at c1 c2 c3 c4 c5 ⊢
    rw [c3, ho]
    have npt : p.2 ≠ t.2 := by
      intro e
      rcases c5 with c5 | c5
      · have := ht _ c5; omega
      · omega
    have nqt : q.2 ≠ t.2 := by
      intro e
      rcases c5 with c5 | c5
      · have := ht _ c5; omega
      · omega
    have ok : Ok t.1 ⟨p.2, q.2, t.2, t.2⟩ := by
      refine ⟨?_, ?_, c2, c2, ?_, npt, npt, nqt, nqt⟩
      · show p.2 < _; omega
      · show q.2 < _; omega
      · show p.2 ≠ q.2; omega
    have val : HInst.value t.1 ⟨p.2, q.2, t.2, t.2⟩ = { valid := optRd h trusted } := by
      dsimp only [value]
      rw [c3, ho, c4 p.2 (by omega), b4 p.2 (by omega), a3, c4 q.2 (by omega), b2, if_pos _root_.rfl]
    have hold : ∀ a, a < h.length → t.1.rd a = h.rd a := fun a ha => by rw [c4 a (by omega), b4 a (by omega), a4 a ha]
    have hfresh : ∀ a, a < h.length → trusted ≠ some a → ¬ HInst.Has ⟨p.2, q.2, t.2, t.2⟩ a := by
      intro a ha h2 hh
      rcases hh with e | e | e | e
      · change a = p.2 at e; omega
      · change a = q.2 at e; omega
      · change a = t.2 at e
        rcases c5 with c5 | c5
        · exact h2 (by rw [e]; exact c5)
        · omega
      · change a = t.2 at e
        rcases c5 with c5 | c5
        · exact h2 (by rw [e]; exact c5)
        · omega
    have s := convert_sim env n c ok (optRd h raw) { ctx with trusted := optRd h trusted }
    rw [val] at s
    change InitSpec h raw trusted lazy_
      (match HInst.convert env n c t.1 ⟨p.2, q.2, t.2, t.2⟩ (optRd h raw) { ctx with trusted := optRd h trusted } with
        | (.error e, h1, _) => (.error e, h1)
        | (.ok d, h1, J) => _) _
    generalize HInst.convert env n c t.1 ⟨p.2, q.2, t.2, t.2⟩ (optRd h raw) { ctx with trusted := optRd h trusted } = x at s ⊢
    generalize instConvert env n c { valid := optRd h trusted } (optRd h raw) { ctx with trusted := optRd h trusted } = y at s ⊢
    obtain ⟨x, h1, J⟩ := x
    obtain ⟨y, V⟩ := y
    obtain ⟨s1, s2, -⟩ := s
    dsimp only at s1 s2
    subst s1
    have hV := s2.value
    dsimp only at hV
    subst hV
    have fin : ∀ (h' : DictHeap) (K : HInst), Frame t.1 ⟨p.2, q.2, t.2, t.2⟩ h' K →
        h.length ≤ h'.length ∧ (∀ a, a < h.length → trusted ≠ some a → h'.rd a = h.rd a ∧ ¬ K.Has a) := by
      intro h' K f
      refine ⟨by have := f.len; omega, fun a ha hn => ⟨?_, ?_⟩⟩
      · rw [f.keeps (by omega) (hfresh a ha hn), hold a ha]
      · intro hk
        rcases f.has hk with g | g
        · exact hfresh a ha hn g
        · omega
    cases x with
    | error e =>
      obtain ⟨g1, g2⟩ := fin h1 J s2.frame
      exact ⟨g1, fun a ha _ hn => (g2 a ha hn).1, _root_.rfl, by intro I hI; (cases hI), by intro I hI; cases hI⟩
    | ok d =>
      dsimp only
      have k := new_converted s2.ok d
      dsimp only at k
      have fk := s2.frame.trans k.2.1
      by_cases hv : ctx.validate = true
      · rw [if_pos hv, if_pos hv]
        have v := validate_sim env n c k.1 { partial_ := ctx.partial_, app := ctx.app, init := ctx.init, defaults := ctx.defaults }
        rw [k.2.2] at v
        generalize HInst.validate env n c (h1.new d).1 { J with converted := (h1.new d).2 } { partial_ := ctx.partial_, app := ctx.app, init := ctx.init, defaults := ctx.defaults } = z at v ⊢
        generalize instValidate env n c { J.value h1 with converted := d } { partial_ := ctx.partial_, app := ctx.app, init := ctx.init, defaults := ctx.defaults } = z' at v ⊢
        obtain ⟨z, h2, L⟩ := z
        obtain ⟨z', W⟩ := z'
        obtain ⟨v1, v2⟩ := v
        dsimp only at v1 v2
        subst v1
        have hW := v2.value
        dsimp only at hW
        subst hW
        obtain ⟨g1, g2⟩ := fin h2 L (fk.trans v2.frame)
        cases z with
        | error e => exact ⟨g1, fun a ha _ hn => (g2 a ha hn).1, _root_.rfl, by intro I hI; (cases hI), by intro I hI; cases hI⟩
        | ok u =>
          exact ⟨g1, fun a ha _ hn => (g2 a ha hn).1, _root_.rfl, by intro I hI; cases hI; exact v2.ok, by
            intro I hI a ha _ hn; cases hI; exact (g2 a ha hn).2⟩
      · rw [if_neg hv, if_neg hv]
        obtain ⟨g1, g2⟩ := fin _ _ fk
        refine ⟨g1, fun a ha _ hn => (g2 a ha hn).1, ?_, by intro I hI; cases hI; exact k.1, by
            intro I hI a ha _ hn; cases hI; exact (g2 a ha hn).2⟩
        dsimp only
        rw [k.2.2]

end HInst

/-! ## Programs -/

/-- Everything is separate: the dicts of the program from each other and from the dicts of the instances, and these from each other. -/
structure AWorld.Inv (w : AWorld) : Prop where
  mineLt : ∀ (k : Nat) (a : Nat), w.mine[k]? = some a → a < w.heap.length
  mineNodup : ∀ (k l : Nat) (a : Nat), w.mine[k]? = some a → w.mine[l]? = some a → k = l
  ok : ∀ (i : Nat) (c : ClassDef) (I : HInst), w.insts[i]? = some (c, I) → HInst.Ok w.heap I
  mineSep : ∀ (i : Nat) (c : ClassDef) (I : HInst) (k : Nat) (a : Nat), w.insts[i]? = some (c, I) → w.mine[k]? = some a → ¬ I.Has a
  sep : ∀ (i j : Nat) (c d : ClassDef) (I J : HInst) (a : Nat), i ≠ j → w.insts[i]? = some (c, I) → w.insts[j]? = some (d, J) → I.Has a → ¬ J.Has a

theorem AWorld.value_insts (w : AWorld) (i : Nat) :
    w.value.insts[i]? = (w.insts[i]?).map fun p => (p.1, p.2.value w.heap) := by
  simp [AWorld.value]

theorem AWorld.value_dicts (w : AWorld) (k : Nat) : w.value.dicts[k]? = (w.mine[k]?).map w.heap.rd := by
  simp [AWorld.value]

/-- Two worlds of values with the same entries are equal. -/
theorem VWorld.ext' {v w : VWorld} (h1 : ∀ k : Nat, v.dicts[k]? = w.dicts[k]?) (h2 : ∀ i : Nat, v.insts[i]? = w.insts[i]?) : v = w := by
  obtain ⟨a, b⟩ := v
  obtain ⟨a', b'⟩ := w
  have e1 : a = a' := List.ext_getElem? h1
  have e2 : b = b' := List.ext_getElem? h2
  subst e1; subst e2; rfl

/-- A call on one instance. -/
theorem AWorld.callInst_sim (env : Env) (n : Nat) {w : AWorld} (hw : w.Inv) (i : Nat) (op : Op) :
    (w.callInst env n i op).Inv ∧
      (w.callInst env n i op).value = { w.value with insts := w.value.insts.modify i fun p => (p.1, op.run env n p.1 p.2) } := by
  unfold AWorld.callInst
  cases hi : w.insts[i]? with
  | none =>
    refine ⟨hw, VWorld.ext' (fun _ => rfl) fun j => ?_⟩
    dsimp only
    rw [List.getElem?_modify, AWorld.value_insts]
    by_cases e : i = j
    · subst e; rw [hi]; rfl
    · cases w.insts[j]? with
      | none => rfl
      | some p => show some _ = some (if i = j then _ else _); rw [if_neg e]
  | some p =>
    obtain ⟨c, I⟩ := p
    dsimp only
    have s := HInst.run_sim env n c (hw.ok i c I hi) op
    generalize I.run env n c w.heap op = r at s ⊢
    obtain ⟨h', J⟩ := r
    dsimp only
    have hlt : i < w.insts.length := (List.getElem?_eq_some_iff.1 hi).1
    -- the other instances
    have other : ∀ j d K, j ≠ i → w.insts[j]? = some (d, K) → HInst.Ok h' K ∧ K.value h' = K.value w.heap := by
      intro j d K hj hK
      refine HInst.value_congr (hw.ok j d K hK) s.frame.len fun a ha => ?_
      exact s.frame.keeps ((hw.ok j d K hK).lt ha) fun hI => hw.sep i j c d I K a (Ne.symm hj) hi hK hI ha
    have get : ∀ j, (w.insts.set i (c, J))[j]? = if i = j then some (c, J) else w.insts[j]? := by
      intro j
      rw [List.getElem?_set]
      by_cases e : i = j
      · rw [if_pos e, if_pos e, if_pos hlt]
      · rw [if_neg e, if_neg e]
    have dicts : ∀ k a, w.mine[k]? = some a → h'.rd a = w.heap.rd a := fun k a ha =>
      s.frame.keeps (hw.mineLt k a ha) (hw.mineSep i c I k a hi ha)
    refine ⟨⟨?_, hw.mineNodup, ?_, ?_, ?_⟩, VWorld.ext' ?_ ?_⟩
    · intro k a ha
      exact Nat.lt_of_lt_of_le (hw.mineLt k a ha) s.frame.len
    · intro j d K hK
      dsimp only at hK ⊢
      rw [get] at hK
      by_cases e : i = j
      · rw [if_pos e] at hK; cases hK; exact s.ok
      · rw [if_neg e] at hK; exact (other j d K (Ne.symm e) hK).1
    · intro j d K k a hK ha
      dsimp only at hK ha
      rw [get] at hK
      by_cases e : i = j
      · rw [if_pos e] at hK; cases hK
        intro hh
        rcases s.frame.has hh with g | g
        · exact hw.mineSep i c I k a hi ha g
        · exact absurd (hw.mineLt k a ha) (by omega)
      · rw [if_neg e] at hK; exact hw.mineSep j d K k a hK ha
    · intro j1 j2 d1 d2 K1 K2 a hj h1 h2 ha1 ha2
      dsimp only at h1 h2
      rw [get] at h1 h2
      by_cases e1 : i = j1
      · have e2 : ¬ i = j2 := fun e2 => hj (e1.symm.trans e2)
        rw [if_pos e1] at h1; cases h1
        rw [if_neg e2] at h2
        rcases s.frame.has ha1 with g | g
        · exact hw.sep i j2 c d2 I K2 a e2 hi h2 g ha2
        · exact absurd ((hw.ok j2 d2 K2 h2).lt ha2) (by omega)
      · rw [if_neg e1] at h1
        by_cases e2 : i = j2
        · rw [if_pos e2] at h2; cases h2
          rcases s.frame.has ha2 with g | g
          · exact hw.sep i j1 c d1 I K1 a e1 hi h1 g ha1
          · exact absurd ((hw.ok j1 d1 K1 h1).lt ha1) (by omega)
        · rw [if_neg e2] at h2; exact hw.sep j1 j2 d1 d2 K1 K2 a hj h1 h2 ha1 ha2
    · intro k
      rw [AWorld.value_dicts]
      dsimp only
      rw [AWorld.value_dicts]
      cases hk : w.mine[k]? with
      | none => rfl
      | some a => show some _ = some _; rw [dicts k a hk]
    · intro j
      rw [AWorld.value_insts]
      dsimp only
      rw [List.getElem?_modify, AWorld.value_insts, get]
      by_cases e : i = j
      · subst e
        rw [if_pos rfl, hi]
        show some _ = some (if i = i then _ else _)
        rw [if_pos rfl]
        dsimp only
        rw [← s.value]
      · rw [if_neg e]
        cases hj : w.insts[j]? with
        | none => rfl
        | some p =>
          show some _ = some (if i = j then _ else _)
          dsimp only
          rw [(other j p.1 p.2 (Ne.symm e) hj).2, if_neg e]

/-- The argument of a call: its dict object exists, has the right content, and nothing else changes. -/
theorem AWorld.arg_spec (w : AWorld) (hlt : ∀ (k : Nat) (a : Nat), w.mine[k]? = some a → a < w.heap.length) (x : ArgSrc) :
    w.heap.length ≤ (w.arg x).1.length ∧ (∀ a, a < w.heap.length → (w.arg x).1.rd a = w.heap.rd a) ∧
      (∀ a, (w.arg x).2 = some a → a < (w.arg x).1.length) ∧ HInst.optRd (w.arg x).1 (w.arg x).2 = w.value.arg x ∧
      ((∀ k, x ≠ .mine k) → ∀ a, (w.arg x).2 = some a → w.heap.length ≤ a) ∧
      (∀ k, x = .mine k → (w.arg x).2 = w.mine[k]?) := by
  cases x with
  | none => exact ⟨Nat.le_refl _, fun _ _ => rfl, (by intro a h; cases h), rfl, (by intro _ a h; cases h), (by intro k h; cases h)⟩
  | mine k =>
    refine ⟨Nat.le_refl _, fun _ _ => rfl, (fun a h => hlt k a h), ?_, fun h => absurd rfl (h k), by intro l h; cases h; rfl⟩
    show ((w.mine[k]?).map w.heap.rd).getD [] = (w.value.dicts[k]?).getD []
    rw [AWorld.value_dicts]
  | literal d =>
    refine ⟨?_, fun a ha => rd_new _ _ _ ha, ?_, ?_, ?_, (by intro k h; cases h)⟩
    · show _ ≤ (w.heap.new d).1.length
      rw [length_new]; omega
    · intro a h
      change some (w.heap.new d).2 = some a at h
      cases h
      show _ < (w.heap.new d).1.length
      rw [length_new]; exact Nat.lt_succ_self _
    · show (w.heap.new d).1.rd (w.heap.new d).2 = d
      exact rd_new_self ..
    · intro _ a h
      change some (w.heap.new d).2 = some a at h
      cases h
      exact Nat.le_refl _

/-- A world whose heap has only grown. -/
theorem AWorld.grow {w : AWorld} (hw : w.Inv) (h' : DictHeap) (hl : w.heap.length ≤ h'.length) (hr : ∀ a, a < w.heap.length → h'.rd a = w.heap.rd a) :
    ({ w with heap := h' } : AWorld).Inv ∧ ({ w with heap := h' } : AWorld).value = w.value := by
  have other : ∀ (j : Nat) (d : ClassDef) (K : HInst), w.insts[j]? = some (d, K) → HInst.Ok h' K ∧ K.value h' = K.value w.heap := by
    intro j d K hK
    exact HInst.value_congr (hw.ok j d K hK) hl fun a ha => hr a ((hw.ok j d K hK).lt ha)
  refine ⟨⟨fun k a ha => Nat.lt_of_lt_of_le (hw.mineLt k a ha) hl, hw.mineNodup, fun j d K hK => (other j d K hK).1, hw.mineSep, hw.sep⟩,
    VWorld.ext' ?_ ?_⟩
  · intro k
    rw [AWorld.value_dicts, AWorld.value_dicts]
    cases hk : w.mine[k]? with
    | none => rfl
    | some a => show some _ = some _; rw [hr a (hw.mineLt k a hk)]
  · intro j
    rw [AWorld.value_insts, AWorld.value_insts]
    cases hj : w.insts[j]? with
    | none => rfl
    | some p => show some _ = some _; dsimp only; rw [(other j p.1 p.2 hj).2]

/-- A new instance whose dicts are new. -/
theorem AWorld.push {w : AWorld} (hw : w.Inv) (c : ClassDef) (I : HInst) (ok : HInst.Ok w.heap I)
    (hm : ∀ (k : Nat) (a : Nat), w.mine[k]? = some a → ¬ I.Has a) (hi : ∀ (j : Nat) (d : ClassDef) (J : HInst) (a : Nat), w.insts[j]? = some (d, J) → J.Has a → ¬ I.Has a) :
    ({ w with insts := w.insts ++ [(c, I)] } : AWorld).Inv ∧
      ({ w with insts := w.insts ++ [(c, I)] } : AWorld).value = { w.value with insts := w.value.insts ++ [(c, I.value w.heap)] } := by
  have get : ∀ j p, (w.insts ++ [(c, I)])[j]? = some p → w.insts[j]? = some p ∨ (j = w.insts.length ∧ p = (c, I)) := by
    intro j p h
    by_cases e : j < w.insts.length
    · rw [List.getElem?_append_left e] at h; exact .inl h
    · rw [List.getElem?_append_right (by omega)] at h
      cases hk : j - w.insts.length with
      | zero =>
        rw [hk] at h
        refine .inr ⟨by omega, ?_⟩
        simpa using h.symm
      | succ m => rw [hk] at h; simp at h
  have ltOf : ∀ j p, w.insts[j]? = some p → j < w.insts.length := fun j p h => (List.getElem?_eq_some_iff.1 h).1
  refine ⟨⟨hw.mineLt, hw.mineNodup, ?_, ?_, ?_⟩, ?_⟩
  · intro j d J h
    rcases get j _ h with h | ⟨_, h⟩
    · exact hw.ok j d J h
    · cases h; exact ok
  · intro j d J k a h ha
    rcases get j _ h with h | ⟨_, h⟩
    · exact hw.mineSep j d J k a h ha
    · cases h; exact hm k a ha
  · intro j1 j2 d1 d2 J1 J2 a hj h1 h2 ha
    rcases get j1 _ h1 with h1 | ⟨e1, h1⟩
    · rcases get j2 _ h2 with h2 | ⟨e2, h2⟩
      · exact hw.sep j1 j2 d1 d2 J1 J2 a hj h1 h2 ha
      · cases h2; exact hi j1 d1 J1 a h1 ha
    · rcases get j2 _ h2 with h2 | ⟨e2, h2⟩
      · cases h1
        intro ha2
        exact hi j2 d2 J2 a h2 ha2 ha
      · exact absurd (e1.trans e2.symm) hj
  · simp [AWorld.value]

/-- One step of a program that keeps to the rule. -/
theorem AWorld.step_sim (env : Env) (n : Nat) {w : AWorld} (hw : w.Inv) (op : AOp) (hc : op.Clean) :
    (w.step env n op).Inv ∧ (w.step env n op).value = w.value.step env n op := by
  cases op with
  | mk d =>
    obtain ⟨g1, g2⟩ := AWorld.grow hw (w.heap.new d).1 (by rw [length_new]; omega) (fun a ha => rd_new _ _ _ ha)
    have get : ∀ k a, (w.mine ++ [(w.heap.new d).2])[k]? = some a → w.mine[k]? = some a ∨ (k = w.mine.length ∧ a = w.heap.length) := by
      intro k a h
      by_cases e : k < w.mine.length
      · rw [List.getElem?_append_left e] at h; exact .inl h
      · rw [List.getElem?_append_right (by omega)] at h
        cases hk : k - w.mine.length with
        | zero =>
          rw [hk] at h
          refine .inr ⟨by omega, ?_⟩
          cases h; rfl
        | succ m => rw [hk] at h; simp at h
    refine ⟨⟨?_, ?_, g1.ok, ?_, g1.sep⟩, ?_⟩
    · intro k a h
      rcases get k a h with h | ⟨_, h⟩
      · exact g1.mineLt k a h
      · show a < (w.heap.new d).1.length
        rw [length_new]; omega
    · intro k l a h1 h2
      rcases get k a h1 with h1 | ⟨e1, h1⟩
      · rcases get l a h2 with h2 | ⟨e2, h2⟩
        · exact hw.mineNodup k l a h1 h2
        · exact absurd (hw.mineLt k a h1) (by omega)
      · rcases get l a h2 with h2 | ⟨e2, h2⟩
        · exact absurd (hw.mineLt l a h2) (by omega)
        · omega
    · intro i c I k a h ha hh
      rcases get k a ha with ha | ⟨_, ha⟩
      · exact g1.mineSep i c I k a h ha hh
      · exact absurd ((hw.ok i c I h).lt hh) (by omega)
    · have e1 := congrArg VWorld.dicts g2
      have e2 := congrArg VWorld.insts g2
      apply VWorld.ext'
      · intro k
        show (List.map _ (w.mine ++ [_]))[k]? = (w.value.dicts ++ [d])[k]?
        rw [List.map_append, ← e1]
        show (_ ++ [(w.heap.new d).1.rd (w.heap.new d).2])[k]? = _
        rw [rd_new_self]
        rfl
      · intro i
        show (_ : List (ClassDef × Inst))[i]? = w.value.insts[i]?
        rw [← e2]
        rfl
  | write k d =>
    unfold AWorld.step VWorld.step
    dsimp only
    cases hk : w.mine[k]? with
    | none =>
      refine ⟨hw, VWorld.ext' (fun l => ?_) fun _ => rfl⟩
      dsimp only
      rw [List.getElem?_set]
      by_cases e : k = l
      · subst e
        rw [if_pos rfl, AWorld.value_dicts, hk]
        have : ¬ k < w.value.dicts.length := by
          intro h
          have : w.value.dicts.length = w.mine.length := by simp [AWorld.value]
          rw [List.getElem?_eq_none_iff] at hk
          omega
        rw [if_neg this]; rfl
      · rw [if_neg e]
    | some a =>
      dsimp only
      have hlt := hw.mineLt k a hk
      have other : ∀ (j : Nat) (d' : ClassDef) (K : HInst), w.insts[j]? = some (d', K) → HInst.Ok (w.heap.wr a d) K ∧ K.value (w.heap.wr a d) = K.value w.heap := by
        intro j d' K hK
        refine HInst.value_congr (hw.ok j d' K hK) (by rw [length_wr]; exact Nat.le_refl _) fun b hb => ?_
        rw [rd_wr _ _ _ _ hlt, if_neg]
        rintro rfl
        exact hw.mineSep j d' K k b hK hk hb
      refine ⟨⟨?_, hw.mineNodup, fun j d' K hK => (other j d' K hK).1, hw.mineSep, hw.sep⟩, VWorld.ext' ?_ ?_⟩
      · intro l b hb
        show b < (w.heap.wr a d).length
        rw [length_wr]; exact hw.mineLt l b hb
      · intro l
        rw [AWorld.value_dicts]
        dsimp only
        rw [List.getElem?_set]
        by_cases e : k = l
        · subst e
          rw [if_pos rfl, hk]
          have : k < w.value.dicts.length := by
            have h1 : w.value.dicts.length = w.mine.length := by simp [AWorld.value]
            rw [h1]; exact (List.getElem?_eq_some_iff.1 hk).1
          rw [if_pos this]
          show some _ = some _
          rw [rd_wr _ _ _ _ hlt, if_pos rfl]
        · rw [if_neg e, AWorld.value_dicts]
          cases hl : w.mine[l]? with
          | none => rfl
          | some b =>
            show some _ = some _
            rw [rd_wr _ _ _ _ hlt, if_neg]
            rintro rfl
            exact e (hw.mineNodup k l b hk hl)
      · intro j
        rw [AWorld.value_insts]
        dsimp only
        rw [AWorld.value_insts]
        cases hj : w.insts[j]? with
        | none => rfl
        | some p => show some _ = some _; dsimp only; rw [(other j p.1 p.2 hj).2]
  | new c raw trusted lazy_ ctx =>
    unfold AWorld.step VWorld.step
    dsimp only
    obtain ⟨r1, r2, r3, r4, r5, r6⟩ := w.arg_spec hw.mineLt raw
    obtain ⟨g1, g2⟩ := AWorld.grow hw (w.arg raw).1 r1 r2
    generalize w.arg raw = r at r1 r2 r3 r4 r5 r6 g1 g2 ⊢
    obtain ⟨t1, t2, t3, t4, t5, -⟩ := AWorld.arg_spec { w with heap := r.1 } g1.mineLt trusted
    obtain ⟨k1, k2⟩ := AWorld.grow g1 (({ w with heap := r.1 } : AWorld).arg trusted).1 t1 t2
    generalize ({ w with heap := r.1 } : AWorld).arg trusted = t at t1 t2 t3 t4 t5 k1 k2 ⊢
    dsimp only at t1 t2 t3 t4 t5 k1 k2
    have ht : ∀ a, t.2 = some a → r.1.length ≤ a := t5 hc.2
    have hr : lazy_ = true → ∀ a, r.2 = some a → w.heap.length ≤ a ∧ a < r.1.length := fun hl a ha => ⟨r5 (hc.1 hl) a ha, r3 a ha⟩
    have hro : HInst.optRd t.1 r.2 = w.value.arg raw := by
      rw [← r4]
      cases hr2 : r.2 with
      | none => rfl
      | some a => exact t2 a (r3 a hr2)
    have hto : HInst.optRd t.1 t.2 = w.value.arg trusted := by rw [t4, g2]
    have S := HInst.init_spec env n c t.1 r.2 t.2 lazy_ ctx (fun a ha => Nat.lt_of_lt_of_le (r3 a ha) t1) t3
      (fun hl a ha ha' => absurd (ht a ha') (by have := hr hl a ha; omega))
    rw [hro, hto] at S
    generalize HInst.init env n c t.1 r.2 t.2 lazy_ ctx = x at S ⊢
    obtain ⟨x, h'⟩ := x
    obtain ⟨s1, s2, s3, s4, s5⟩ := S
    dsimp only at s1 s2 s3 s4 s5
    have old : ∀ a, a < w.heap.length → (lazy_ = true → r.2 ≠ some a) ∧ t.2 ≠ some a := fun a ha =>
      ⟨fun hl e => by have := hr hl a e; omega, fun e => by have := ht a e; omega⟩
    obtain ⟨m1, m2⟩ := AWorld.grow hw h' (by omega) (fun a ha => by
      rw [s2 a (by omega) (old a ha).1 (old a ha).2, t2 a (by omega), r2 a ha])
    rw [s3]
    cases x with
    | error e => exact ⟨m1, m2⟩
    | ok I =>
      dsimp only
      have f : ∀ a, a < w.heap.length → ¬ I.Has a := fun a ha => s5 I rfl a (by omega) (old a ha).1 (old a ha).2
      obtain ⟨p1, p2⟩ := AWorld.push m1 c I (s4 I rfl) (fun k a ha => f a (hw.mineLt k a ha))
        (fun j d J a hJ ha => f a ((hw.ok j d J hJ).lt ha))
      exact ⟨p1, by rw [p2, m2]⟩
  | call i op => exact AWorld.callInst_sim env n hw i op
  | importMine i k ctx =>
    unfold AWorld.step VWorld.step
    dsimp only
    rw [AWorld.value_dicts]
    cases hk : w.mine[k]? with
    | none => exact ⟨hw, rfl⟩
    | some a => exact AWorld.callInst_sim env n hw i (.importData (w.heap.rd a) ctx)

theorem AWorld.run_sim (env : Env) (n : Nat) (ops : List AOp) : ∀ {w : AWorld}, w.Inv → (∀ op ∈ ops, op.Clean) →
    (w.run env n ops).Inv ∧ (w.run env n ops).value = w.value.run env n ops := by
  induction ops with
  | nil => intro w hw _; exact ⟨hw, rfl⟩
  | cons op ops ih =>
    intro w hw hc
    obtain ⟨h1, h2⟩ := AWorld.step_sim env n hw op (hc op (List.mem_cons_self ..))
    obtain ⟨k1, k2⟩ := ih h1 fun o ho => hc o (List.mem_cons_of_mem _ ho)
    refine ⟨k1, ?_⟩
    show ((w.step env n op).run env n ops).value = (w.value.step env n op).run env n ops
    rw [k2, h2]

theorem AWorld.inv_empty : ({} : AWorld).Inv := by
  refine ⟨?_, ?_, ?_, ?_, ?_⟩
  · intro k a h; simp at h
  · intro k l a h; simp at h
  · intro i c I h; simp at h
  · intro i c I k a h; simp at h
  · intro i j c d I J a _ h; simp at h

/-- The dict with index `k` is not handed over to an instance, and no call hands one dict over twice. -/
def AOp.Keeps (k : Nat) : AOp → Prop
  | .new _ raw trusted lazy_ _ => (lazy_ = true → raw ≠ .mine k) ∧ trusted ≠ .mine k ∧ (lazy_ = true → ∀ l, raw = .mine l → trusted ≠ .mine l)
  | _ => True

/-- The dict with index `k` belongs to nobody else. -/
structure AWorld.Own (k : Nat) (w : AWorld) : Prop where
  mineLt : ∀ (k : Nat) (a : Nat), w.mine[k]? = some a → a < w.heap.length
  mineNodup : ∀ (k l : Nat) (a : Nat), w.mine[k]? = some a → w.mine[l]? = some a → k = l
  ok : ∀ (i : Nat) (c : ClassDef) (I : HInst), w.insts[i]? = some (c, I) → HInst.Ok w.heap I
  own : ∀ (i : Nat) (c : ClassDef) (I : HInst) (a : Nat), w.insts[i]? = some (c, I) → w.mine[k]? = some a → ¬ I.Has a

theorem AWorld.callInst_own (env : Env) (n k : Nat) {w : AWorld} (hw : w.Own k) (i : Nat) (op : Op) :
    (w.callInst env n i op).Own k ∧ (w.callInst env n i op).mine = w.mine ∧
      ∀ a, w.mine[k]? = some a → (w.callInst env n i op).heap.rd a = w.heap.rd a := by
  unfold AWorld.callInst
  cases hi : w.insts[i]? with
  | none => exact ⟨hw, rfl, fun _ _ => rfl⟩
  | some p =>
    obtain ⟨c, I⟩ := p
    dsimp only
    have s := HInst.run_sim env n c (hw.ok i c I hi) op
    generalize I.run env n c w.heap op = r at s ⊢
    obtain ⟨h', J⟩ := r
    dsimp only
    have hlt : i < w.insts.length := (List.getElem?_eq_some_iff.1 hi).1
    have get : ∀ j, (w.insts.set i (c, J))[j]? = if i = j then some (c, J) else w.insts[j]? := by
      intro j
      rw [List.getElem?_set]
      by_cases e : i = j
      · rw [if_pos e, if_pos e, if_pos hlt]
      · rw [if_neg e, if_neg e]
    refine ⟨⟨fun l a ha => Nat.lt_of_lt_of_le (hw.mineLt l a ha) s.frame.len, hw.mineNodup, ?_, ?_⟩, rfl,
      fun a ha => s.frame.keeps (hw.mineLt k a ha) (hw.own i c I a hi ha)⟩
    · intro j d K hK
      dsimp only at hK ⊢
      rw [get] at hK
      by_cases e : i = j
      · rw [if_pos e] at hK; cases hK; exact s.ok
      · rw [if_neg e] at hK
        have o := hw.ok j d K hK
        have l := s.frame.len
        dsimp only at l
        exact ⟨Nat.lt_of_lt_of_le o.raw l, Nat.lt_of_lt_of_le o.converted l, Nat.lt_of_lt_of_le o.valid l, Nat.lt_of_lt_of_le o.stale l,
          o.rc, o.rv, o.rs, o.cv, o.cs⟩
    · intro j d K a hK ha
      dsimp only at hK ha
      rw [get] at hK
      by_cases e : i = j
      · rw [if_pos e] at hK; cases hK
        intro hh
        rcases s.frame.has hh with g | g
        · exact hw.own i c I a hi ha g
        · exact absurd (hw.mineLt k a ha) (by omega)
      · rw [if_neg e] at hK; exact hw.own j d K a hK ha

theorem AWorld.step_own (env : Env) (n k : Nat) {w : AWorld} (hw : w.Own k) (op : AOp) (hc : op.Keeps k) :
    (w.step env n op).Own k ∧ (∀ a, w.mine[k]? = some a → (w.step env n op).mine[k]? = some a) ∧
      ((∀ d, op ≠ .write k d) → ∀ a, w.mine[k]? = some a → (w.step env n op).heap.rd a = w.heap.rd a) := by
  have grow : ∀ (h' : DictHeap), w.heap.length ≤ h'.length → ∀ (i : Nat) (c : ClassDef) (I : HInst), w.insts[i]? = some (c, I) → HInst.Ok h' I := by
    intro h' l j d K hK
    have o := hw.ok j d K hK
    exact ⟨Nat.lt_of_lt_of_le o.raw l, Nat.lt_of_lt_of_le o.converted l, Nat.lt_of_lt_of_le o.valid l, Nat.lt_of_lt_of_le o.stale l,
      o.rc, o.rv, o.rs, o.cv, o.cs⟩
  cases op with
  | mk d =>
    have get : ∀ l a, (w.mine ++ [(w.heap.new d).2])[l]? = some a → w.mine[l]? = some a ∨ (l = w.mine.length ∧ a = w.heap.length) := by
      intro l a h
      by_cases e : l < w.mine.length
      · rw [List.getElem?_append_left e] at h; exact .inl h
      · rw [List.getElem?_append_right (by omega)] at h
        cases hk : l - w.mine.length with
        | zero =>
          rw [hk] at h
          refine .inr ⟨by omega, ?_⟩
          cases h; rfl
        | succ m => rw [hk] at h; simp at h
    refine ⟨⟨?_, ?_, grow (w.heap.new d).1 (by rw [length_new]; omega), ?_⟩, ?_, ?_⟩
    · intro l a h
      show a < (w.heap.new d).1.length
      rw [length_new]
      rcases get l a h with h | ⟨_, h⟩
      · have := hw.mineLt l a h; omega
      · omega
    · intro l m a h1 h2
      rcases get l a h1 with h1 | ⟨e1, h1⟩
      · rcases get m a h2 with h2 | ⟨e2, h2⟩
        · exact hw.mineNodup l m a h1 h2
        · exact absurd (hw.mineLt l a h1) (by omega)
      · rcases get m a h2 with h2 | ⟨e2, h2⟩
        · exact absurd (hw.mineLt m a h2) (by omega)
        · omega
    · intro i c I a h ha hh
      rcases get k a ha with ha | ⟨_, ha⟩
      · exact hw.own i c I a h ha hh
      · exact absurd ((hw.ok i c I h).lt hh) (by omega)
    · intro a ha
      show (w.mine ++ [_])[k]? = _
      rw [List.getElem?_append_left (List.getElem?_eq_some_iff.1 ha).1, ha]
    · intro _ a ha
      exact rd_new _ _ _ (hw.mineLt k a ha)
  | write l d =>
    unfold AWorld.step
    dsimp only
    cases hl : w.mine[l]? with
    | none => exact ⟨hw, fun a ha => ha, fun _ _ _ => rfl⟩
    | some b =>
      have hb := hw.mineLt l b hl
      have hlen : (w.heap.wr b d).length = w.heap.length := length_wr ..
      refine ⟨⟨?_, hw.mineNodup, grow _ (by rw [hlen]; exact Nat.le_refl _), hw.own⟩, fun a ha => ha, ?_⟩
      · intro m a ha
        show a < (w.heap.wr b d).length
        rw [hlen]; exact hw.mineLt m a ha
      · intro hne a ha
        show (w.heap.wr b d).rd a = _
        rw [rd_wr _ _ _ _ hb, if_neg]
        rintro rfl
        exact hne d (by rw [hw.mineNodup k l a ha hl])
  | new c raw trusted lazy_ ctx =>
    unfold AWorld.step
    dsimp only
    obtain ⟨r1, r2, r3, -, r5, r6⟩ := w.arg_spec hw.mineLt raw
    generalize w.arg raw = r at r1 r2 r3 r5 r6 ⊢
    have hm' : ∀ (l : Nat) (a : Nat), ({ w with heap := r.1 } : AWorld).mine[l]? = some a → a < ({ w with heap := r.1 } : AWorld).heap.length :=
      fun l a ha => Nat.lt_of_lt_of_le (hw.mineLt l a ha) r1
    obtain ⟨t1, t2, t3, -, t5, t6⟩ := AWorld.arg_spec { w with heap := r.1 } hm' trusted
    generalize ({ w with heap := r.1 } : AWorld).arg trusted = t at t1 t2 t3 t5 t6 ⊢
    dsimp only at t1 t2 t3 t5 t6
    have hne : lazy_ = true → ∀ a, r.2 = some a → t.2 ≠ some a := by
      intro hl a ha ht
      by_cases e1 : ∃ l, raw = .mine l
      · obtain ⟨l, e1⟩ := e1
        have hal : w.mine[l]? = some a := by rw [← r6 l e1]; exact ha
        by_cases e2 : ∃ m, trusted = .mine m
        · obtain ⟨m, e2⟩ := e2
          have ham : w.mine[m]? = some a := by rw [← t6 m e2]; exact ht
          exact hc.2.2 hl l e1 (by rw [e2, hw.mineNodup l m a hal ham])
        · have := t5 (fun m hm => e2 ⟨m, hm⟩) a ht
          have := hw.mineLt l a hal
          omega
      · have h1 := r5 (fun l hl => e1 ⟨l, hl⟩) a ha
        have h2 := r3 a ha
        by_cases e2 : ∃ m, trusted = .mine m
        · obtain ⟨m, e2⟩ := e2
          have ham : w.mine[m]? = some a := by rw [← t6 m e2]; exact ht
          have := hw.mineLt m a ham
          omega
        · have := t5 (fun m hm => e2 ⟨m, hm⟩) a ht
          omega
    have S := HInst.init_spec env n c t.1 r.2 t.2 lazy_ ctx (fun a ha => Nat.lt_of_lt_of_le (r3 a ha) t1) t3 hne
    generalize HInst.init env n c t.1 r.2 t.2 lazy_ ctx = x at S ⊢
    obtain ⟨x, h'⟩ := x
    obtain ⟨s1, s2, -, s4, s5⟩ := S
    dsimp only at s1 s2 s4 s5
    have safe : ∀ a, w.mine[k]? = some a → (lazy_ = true → r.2 ≠ some a) ∧ t.2 ≠ some a := by
      intro a ha
      have hlt := hw.mineLt k a ha
      constructor
      · intro hl e
        by_cases e1 : ∃ l, raw = .mine l
        · obtain ⟨l, e1⟩ := e1
          have hal : w.mine[l]? = some a := by rw [← r6 l e1]; exact e
          exact hc.1 hl (by rw [e1, hw.mineNodup l k a hal ha])
        · have := r5 (fun l hl => e1 ⟨l, hl⟩) a e
          omega
      · intro e
        by_cases e1 : ∃ l, trusted = .mine l
        · obtain ⟨l, e1⟩ := e1
          have hal : w.mine[l]? = some a := by rw [← t6 l e1]; exact e
          exact hc.2.1 (by rw [e1, hw.mineNodup l k a hal ha])
        · have := t5 (fun l hl => e1 ⟨l, hl⟩) a e
          omega
    have hl : w.heap.length ≤ h'.length := by omega
    have hrd : ∀ a, w.mine[k]? = some a → h'.rd a = w.heap.rd a := by
      intro a ha
      have hlt := hw.mineLt k a ha
      rw [s2 a (by omega) (safe a ha).1 (safe a ha).2, t2 a (by omega), r2 a hlt]
    cases x with
    | error e => exact ⟨⟨fun l a ha => Nat.lt_of_lt_of_le (hw.mineLt l a ha) hl, hw.mineNodup, grow _ hl, hw.own⟩, fun a ha => ha, fun _ => hrd⟩
    | ok I =>
      have get : ∀ (j : Nat) p, (w.insts ++ [(c, I)])[j]? = some p → w.insts[j]? = some p ∨ p = (c, I) := by
        intro j p h
        by_cases e : j < w.insts.length
        · rw [List.getElem?_append_left e] at h; exact .inl h
        · rw [List.getElem?_append_right (by omega)] at h
          cases hk : j - w.insts.length with
          | zero => rw [hk] at h; right; simpa using h.symm
          | succ m => rw [hk] at h; simp at h
      refine ⟨⟨fun l a ha => Nat.lt_of_lt_of_le (hw.mineLt l a ha) hl, hw.mineNodup, ?_, ?_⟩, fun a ha => ha, fun _ => hrd⟩
      · intro j d J h
        rcases get j _ h with h | h
        · exact grow _ hl j d J h
        · cases h; exact s4 I rfl
      · intro j d J a h ha
        rcases get j _ h with h | h
        · exact hw.own j d J a h ha
        · cases h
          have hlt := hw.mineLt k a ha
          exact s5 I rfl a (by omega) (safe a ha).1 (safe a ha).2
  | call i op =>
    obtain ⟨h1, h2, h3⟩ := AWorld.callInst_own env n k hw i op
    exact ⟨h1, fun a ha => by show (w.callInst env n i op).mine[k]? = _; rw [h2]; exact ha, fun _ => h3⟩
  | importMine i l ctx =>
    unfold AWorld.step
    dsimp only
    cases hl : w.mine[l]? with
    | none => exact ⟨hw, fun a ha => ha, fun _ _ _ => rfl⟩
    | some b =>
      obtain ⟨h1, h2, h3⟩ := AWorld.callInst_own env n k hw i (.importData (w.heap.rd b) ctx)
      exact ⟨h1, fun a ha => by rw [h2]; exact ha, fun _ => h3⟩

theorem AWorld.run_own (env : Env) (n k : Nat) (ops : List AOp) : ∀ {w : AWorld}, w.Own k → (∀ op ∈ ops, op.Keeps k) →
    (w.run env n ops).Own k := by
  induction ops with
  | nil => intro w hw _; exact hw
  | cons op ops ih =>
    intro w hw hc
    exact ih (AWorld.step_own env n k hw op (hc op (List.mem_cons_self ..))).1 fun o ho => hc o (List.mem_cons_of_mem _ ho)

/-! ## The theorems -/

/-- The content of the program's `k`-th dict. -/
def AWorld.dict (w : AWorld) (k : Nat) : Option Data := (w.mine[k]?).map w.heap.rd

/-- A program with any number of instances and dicts, whose constructors, method calls and own changes of its dicts are interleaved in any way, observes what it
would observe if all of them were separate values, provided that it does not keep using dicts it handed over as lazy input or trusted data. -/
theorem C92_as_values (env : Env) (n : Nat) (ops : List AOp) (hc : ∀ op ∈ ops, op.Clean) :
    (AWorld.run env n {} ops).value = VWorld.run env n {} ops :=
  (AWorld.run_sim env n ops AWorld.inv_empty hc).2

/-- Whatever the program does, no call changes one of its dicts, unless that dict was handed over as lazy input or as trusted data: the dict still has the content
that the program gave it. -/
theorem C92_input_unchanged (env : Env) (n : Nat) (hist : List AOp) (op : AOp) (k : Nat) (hs : ∀ o ∈ hist ++ [op], o.Keeps k)
    (hw : ∀ d, op ≠ .write k d) (hk : k < (AWorld.run env n {} hist).mine.length) :
    (AWorld.run env n {} (hist ++ [op])).dict k = (AWorld.run env n {} hist).dict k := by
  have e : AWorld.run env n {} (hist ++ [op]) = (AWorld.run env n {} hist).step env n op := by
    simp [AWorld.run]
  have o0 : ({} : AWorld).Own k := ⟨fun _ _ h => by simp at h, fun _ _ _ h => by simp at h, fun _ _ _ h => by simp at h, fun _ _ _ _ h => by simp at h⟩
  have o := AWorld.run_own env n k hist o0 fun x hx => hs x (List.mem_append_left _ hx)
  rw [e]
  generalize AWorld.run env n {} hist = w at o hk ⊢
  obtain ⟨a, ha⟩ : ∃ a, w.mine[k]? = some a := ⟨_, List.getElem?_eq_getElem hk⟩
  obtain ⟨-, h2, h3⟩ := AWorld.step_own env n k o op (hs op (List.mem_append_right _ (List.mem_singleton_self op)))
  unfold AWorld.dict
  rw [h2 a ha, ha]
  show some _ = some _
  rw [h3 hw a ha]

/-- A call on one instance changes no other one: from any state that a program can reach under the rule of `C92_as_values`. -/
theorem C92_instances_isolated (env : Env) (n : Nat) (ops : List AOp) (hc : ∀ op ∈ ops, op.Clean) (i j : Nat) (hij : i ≠ j) (op : Op) :
    (AWorld.run env n {} (ops ++ [.call i op])).value.insts[j]? = (AWorld.run env n {} ops).value.insts[j]? := by
  rw [C92_as_values env n _ (fun o ho => by
    rcases List.mem_append.1 ho with h | h
    · exact hc o h
    · rw [List.mem_singleton.1 h]; trivial), C92_as_values env n ops hc]
  simp only [VWorld.run, List.foldl_append, List.foldl_cons, List.foldl_nil]
  show (List.modify _ _ _)[j]? = _
  rw [List.getElem?_modify]
  simp [hij]

/-! ## What the rule excludes -/

/-- Two plain integer fields. -/
def Samples.pair : ClassDef where
  name := "Pair"
  fields := [{ name := "f", field := Samples.intF }, { name := "g", field := Samples.intF }]

open Samples in
/-- `d = {'f': 1}; m = Pair(d, lazy=True); m.g = 2; m.validate()` adds `g` to `d`. -/
theorem C92_counterexample_lazy :
    (AWorld.run env 5 {} [.mk [(.str "f", .int 1)], .new pair (.mine 0) .none true newCtx, .call 0 (.set "g" (.int 2)), .call 0 (.validate {})]).dict 0 =
      some [(.str "f", .int 1), (.str "g", .int 2)] := rfl

open Samples in
/-- `d = {'f': 1}; m = Pair({}, trusted_data=d); p = Pair({}, trusted_data=d)`, both keep `d`: `del m.f` removes `f` from `d`; and when both have been read from `d`,
`d['g'] = 5` is seen by both instances' validated layer. -/
theorem C92_counterexample_trusted :
    (AWorld.run env 5 {} [.mk [(.str "f", .int 1)], .new pair .none (.mine 0) false newCtx, .call 0 (.del "f")]).dict 0 = some [] ∧
    ((AWorld.run env 5 {} [.mk [(.str "f", .int 1)], .new pair .none (.mine 0) true newCtx, .new pair .none (.mine 0) true newCtx,
      .call 0 (.del "f")]).value.insts.map fun p => p.2.valid) = [[], []] ∧
    ((AWorld.run env 5 {} [.mk [(.str "f", .int 1)], .new pair .none (.mine 0) true newCtx, .new pair .none (.mine 0) true newCtx,
      .write 0 [(.str "g", .int 5)]]).value.insts.map fun p => p.2.valid) = [[(.str "g", .int 5)], [(.str "g", .int 5)]] := ⟨rfl, rfl, rfl⟩

/-! ## The hypotheses are met -/

/-- A program with two dicts and two instances that are created from the same dict, changed, validated and filled from the other dict. -/
def Samples.program : List AOp := [
  .mk [(.str "f", .int 1)],
  .mk [(.str "g", .int 7)],
  .new Samples.pair (.mine 0) .none false newCtx,
  .new Samples.pair (.mine 0) (.literal [(.str "g", .int 4)]) false newCtx,
  .write 0 [(.str "f", .int 2)],
  .call 0 (.set "g" (.int 3)),
  .importMine 1 1 newCtx,
  .call 0 (.validate {}),
  .call 1 (.serialize {}),
  .new Samples.pair (.literal [(.str "f", .int 9)]) .none true newCtx,
  .call 2 (.validate {})]

theorem Samples.program_clean : ∀ op ∈ Samples.program, op.Clean := by
  intro op h
  simp only [Samples.program, List.mem_cons, List.not_mem_nil, or_false] at h
  rcases h with h | h | h | h | h | h | h | h | h | h | h <;> subst h <;> simp [AOp.Clean]

theorem Samples.program_keeps : ∀ op ∈ Samples.program, op.Keeps 1 := by
  intro op h
  simp only [Samples.program, List.mem_cons, List.not_mem_nil, or_false] at h
  rcases h with h | h | h | h | h | h | h | h | h | h | h <;> subst h <;> simp [AOp.Keeps]

open Samples in
example : (AWorld.run env 5 {} program).value = VWorld.run env 5 {} program := C92_as_values env 5 program program_clean

open Samples in
example : (VWorld.run env 5 {} program).insts.map (fun p => p.2.content) =
      [[(.str "f", .int 1), (.str "g", .int 3)], [(.str "f", .int 1), (.str "g", .int 7)], [(.str "f", .int 9)]] ∧
    (VWorld.run env 5 {} program).dicts = [[(.str "f", .int 2)], [(.str "g", .int 7)]] := ⟨rfl, rfl⟩

end Verif
