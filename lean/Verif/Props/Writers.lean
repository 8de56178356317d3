import Verif.Props.Readers4
import Verif.Core.Writers

/-!
# C109: several threads assign and read fields of one instance

Whatever the schedule, what the threads see is what they would see if every assignment and every reading took no time at all: there is one order of all of them, in which the calls of every thread are in its
order and which agrees with the clock, such that every call has the result it has when it is made alone, in this order; and the instance is the one these calls leave.
-/
namespace Verif

open DictHeap

/-! ## Specification -/

/-- An access made while nobody else uses the instance: its result and the instance afterwards. -/
def Access.alone (env : Env) (n : Nat) (c : ClassDef) (V : Inst) : Access → R Val × Inst
  | .set name v => ((setAttr env n c V name v).1.map fun _ => .none, (setAttr env n c V name v).2)
  | .get name => (getAttr c V name, V)

/-- The accesses made one after the other, each with the result it has: from the instance before to the one afterwards.  (The number is the thread.) -/
inductive Serial (env : Env) (n : Nat) (c : ClassDef) : Inst → List (Nat × Access × R Val) → Inst → Prop
  | nil (V : Inst) : Serial env n c V [] V
  | cons {V V' : Inst} {l : List (Nat × Access × R Val)} (i : Nat) (a : Access) (rest : Serial env n c (a.alone env n c V).2 l V') :
      Serial env n c V ((i, a, (a.alone env n c V).1) :: l) V'

/-- The accesses of one thread. -/
def partOf (i : Nat) (l : List (Nat × Access × R Val)) : List (Access × R Val) := (l.filter fun e => e.1 == i).map (·.2)

/-- The list are all calls which the thread has finished, with their results, and perhaps the one it has begun. -/
def Accounts (W : Worker) (l : List (Access × R Val)) : Prop :=
  l = W.done ∨ ∃ a r, W.now ≠ .idle ∧ W.current = some a ∧ l = W.done ++ [(a, r)]

/-- The field that is accessed. -/
def Access.name : Access → String
  | .set name _ => name
  | .get name => name

/-- The thread accesses no calculated fields, and has not begun. -/
structure Worker.Fresh (c : ClassDef) (W : Worker) : Prop where
  plain : ∀ l a fd, W.program l = some a → c.field? a.name = some fd → fd.fget = none
  none : W.done = []
  idle : W.now = .idle

/-! ## Proofs -/

section
variable {env : Env} {n : Nat} {c : ClassDef} {h0 : DictHeap} {I : HInst}

theorem Serial.snoc {V V' : Inst} {l : List (Nat × Access × R Val)} (s : Serial env n c V l V') (i : Nat) (a : Access) :
    Serial env n c V (l ++ [(i, a, (a.alone env n c V').1)]) (a.alone env n c V').2 := by
  induction s with
  | nil V => exact .cons i a (.nil _)
  | cons j b _ ih => exact .cons j b ih

theorem partOf_append (i : Nat) (l m : List (Nat × Access × R Val)) : partOf i (l ++ m) = partOf i l ++ partOf i m := by
  simp [partOf]

theorem partOf_self (i : Nat) (a : Access) (r : R Val) : partOf i [(i, a, r)] = [(a, r)] := by simp [partOf]

theorem partOf_other {i j : Nat} (h : j ≠ i) (a : Access) (r : R Val) : partOf j [(i, a, r)] = [] := by
  simp [partOf, Ne.symm h]

/-- The cells while threads assign and read: only the dict of assigned values differs. -/
structure Only (h0 : DictHeap) (I : HInst) (s : Cells) : Prop where
  heap : s = Cells.of s.heap I
  ok : HInst.Ok s.heap I
  raw : s.heap.rd I.raw = h0.rd I.raw
  valid : s.heap.rd I.valid = h0.rd I.valid

theorem Only.lookup {s : Cells} (o : Only h0 I s) (k : Key) : s.lookup k = (I.value s.heap).lookup k := by
  have := o.heap
  unfold Cells.lookup Inst.lookup HInst.value
  rw [this]
  rfl

theorem Only.seesKey {m : Nat → Cells} (hm : ∀ i, Only h0 I (m i)) (k : Key) : seesKey m k = ((m 3).lookup k).isSome := by
  have e0 : (m 0).map0 = I.raw := by rw [(hm 0).heap]; rfl
  have e2 : (m 2).map1 = I.converted := by rw [(hm 2).heap]; rfl
  have e4 : (m 4).map2 = I.valid := by rw [(hm 4).heap]; rfl
  have e30 : (m 3).map0 = I.raw := by rw [(hm 3).heap]; rfl
  have e31 : (m 3).map1 = I.converted := by rw [(hm 3).heap]; rfl
  have e32 : (m 3).map2 = I.valid := by rw [(hm 3).heap]; rfl
  unfold Verif.seesKey probe Cells.lookup
  simp only [e0, e2, e4, e30, e31, e32, (hm 1).raw, (hm 5).valid, (hm 3).raw, (hm 3).valid]
  cases Dict.get? (h0.rd I.raw) k <;> cases Dict.get? ((m 3).heap.rd I.converted) k <;> simp

theorem Only.seesValue {m : Nat → Cells} (hm : ∀ i, Only h0 I (m i)) (k : Key) : seesValue m k = (m 9).lookup k := by
  have e0 : (m 6).map0 = I.raw := by rw [(hm 6).heap]; rfl
  have e2 : (m 8).map1 = I.converted := by rw [(hm 8).heap]; rfl
  have e4 : (m 10).map2 = I.valid := by rw [(hm 10).heap]; rfl
  have e30 : (m 9).map0 = I.raw := by rw [(hm 9).heap]; rfl
  have e31 : (m 9).map1 = I.converted := by rw [(hm 9).heap]; rfl
  have e32 : (m 9).map2 = I.valid := by rw [(hm 9).heap]; rfl
  unfold Verif.seesValue probe Cells.lookup
  simp only [e0, e2, e4, e30, e31, e32, (hm 7).raw, (hm 11).valid, (hm 9).raw, (hm 9).valid]
  cases Dict.get? (h0.rd I.raw) k <;> cases Dict.get? ((m 9).heap.rd I.converted) k <;> rfl

/-- What a reading returns, from the two moments that matter. -/
def answer (seen found : Option Val) : R Val :=
  match seen with
  | none => definedOr none
  | some _ =>
    match found with
    | some v => definedOr (some v)
    | none => .error (.other "KeyError")

theorem Only.readBy {m : Nat → Cells} (hm : ∀ i, Only h0 I (m i)) (name : String) :
    readBy m name = answer ((m 3).lookup (.str name)) ((m 9).lookup (.str name)) := by
  unfold Verif.readBy answer
  rw [Only.seesKey hm, Only.seesValue hm]
  cases (m 3).lookup (.str name) <;> rfl

/-- Where a thread is, and which of its calls are in the order so far. -/
inductive Place' (env : Env) (n : Nat) (c : ClassDef) (h0 : DictHeap) (I : HInst) (s : Cells) (W : Worker) : List (Access × R Val) → Prop
  | idle (h : W.now = .idle) : Place' env n c h0 I s W W.done
  | storing {name : String} {v w : Val} {fd : FieldDef} (h : W.now = .storing name w I.converted) (hp : W.current = some (.set name v)) (hf : c.field? name = some fd)
      (hw : preSet env n fd.field v = .ok w) : Place' env n c h0 I s W W.done
  | early {name : String} {fd : FieldDef} {ms : List Cells} (h : W.now = .reading name ms) (hp : W.current = some (.get name)) (hf : c.field? name = some fd)
      (hm : ∀ x ∈ ms, Only h0 I x) (hl : 0 < ms.length) (hl' : ms.length ≤ 9)
      (h3 : ∀ x, ms[3]? = some x → (x.lookup (.str name)).isSome ∧ (s.lookup (.str name)).isSome) : Place' env n c h0 I s W W.done
  | missed {name : String} {fd : FieldDef} {ms : List Cells} {x : Cells} (h : W.now = .reading name ms) (hp : W.current = some (.get name)) (hf : c.field? name = some fd)
      (hm : ∀ x ∈ ms, Only h0 I x) (hl : ms.length ≤ 11) (h3 : ms[3]? = some x) (hx : x.lookup (.str name) = none) :
      Place' env n c h0 I s W (W.done ++ [(.get name, definedOr none)])
  | found {name : String} {fd : FieldDef} {ms : List Cells} {x y : Cells} {v : Val} (h : W.now = .reading name ms) (hp : W.current = some (.get name)) (hf : c.field? name = some fd)
      (hm : ∀ x ∈ ms, Only h0 I x) (hl : ms.length ≤ 11) (h3 : ms[3]? = some x) (hx : (x.lookup (.str name)).isSome) (h9 : ms[9]? = some y) (hy : y.lookup (.str name) = some v) :
      Place' env n c h0 I s W (W.done ++ [(.get name, definedOr (some v))])

theorem Place'.accounts {s : Cells} {W : Worker} {l : List (Access × R Val)} (p : Place' env n c h0 I s W l) : Accounts W l := by
  cases p with
  | idle => exact .inl rfl
  | storing => exact .inl rfl
  | early => exact .inl rfl
  | missed h hp => exact .inr ⟨_, _, by rw [h]; simp, hp, rfl⟩
  | found h hp => exact .inr ⟨_, _, by rw [h]; simp, hp, rfl⟩

/-- Keys which are there stay. -/
def Grows (s s' : Cells) : Prop := ∀ k, (s.lookup k).isSome → (s'.lookup k).isSome

theorem Place'.grow {s s' : Cells} {W : Worker} {l : List (Access × R Val)} (hg : Grows s s') (p : Place' env n c h0 I s W l) : Place' env n c h0 I s' W l := by
  cases p with
  | idle h => exact .idle h
  | storing h hp hf hw => exact .storing h hp hf hw
  | early h hp hf hm hl hl' h3 => exact .early h hp hf hm hl hl' fun x hx => ⟨(h3 x hx).1, hg _ (h3 x hx).2⟩
  | missed h hp hf hm hl h3 hx => exact .missed h hp hf hm hl h3 hx
  | found h hp hf hm hl h3 hx h9 hy => exact .found h hp hf hm hl h3 hx h9 hy

/-- Everything about the threads at one moment. -/
structure Running (env : Env) (n : Nat) (c : ClassDef) (h0 : DictHeap) (I : HInst) (O : Office) (order : List (Nat × Access × R Val)) : Prop where
  only : Only h0 I O.cells
  serial : Serial env n c (I.value h0) order (I.value O.cells.heap)
  plain : ∀ i l a fd, (O.workers i).program l = some a → c.field? a.name = some fd → fd.fget = none
  place : ∀ i, Place' env n c h0 I O.cells (O.workers i) (partOf i order)
  own : ∀ e ∈ order, ∃ l, (O.workers e.1).program l = some e.2.1

/-- A step of a worker, seen from the order: nothing is added or one access. -/
theorem Running.step {O : Office} {order : List (Nat × Access × R Val)} (r : Running env n c h0 I O order) (i : Nat) :
    ∃ more, Running env n c h0 I (O.step env n c i) (order ++ more) := by
  have own : ∀ W s', (O.workers i).step env n c O.cells = (W, s') → W.program = (O.workers i).program → ∀ j, ((O.step env n c i).workers j).program = (O.workers j).program := by
    intro W s' hs hprog j
    show (if j = i then ((O.workers i).step env n c O.cells).1 else O.workers j).program = _
    by_cases hj : j = i
    · rw [if_pos hj, hs, hj]; exact hprog
    · rw [if_neg hj]
  -- a step that changes no cell and adds nothing
  have quiet : ∀ W, (O.workers i).step env n c O.cells = (W, O.cells) → W.program = (O.workers i).program →
      Place' env n c h0 I O.cells W (partOf i order) → ∃ more, Running env n c h0 I (O.step env n c i) (order ++ more) := by
    intro W hs hprog hpl
    refine ⟨[], ?_⟩
    rw [List.append_nil]
    refine ⟨?_, ?_, ?_, ?_, fun e he => (r.own e he).imp fun l hl => (congrFun (own W _ hs hprog e.1) l).trans hl⟩
    · show Only h0 I ((O.workers i).step env n c O.cells).2; rw [hs]; exact r.only
    · show Serial _ _ _ _ _ (I.value ((O.workers i).step env n c O.cells).2.heap); rw [hs]; exact r.serial
    · intro j l a fd
      show (if j = i then ((O.workers i).step env n c O.cells).1 else O.workers j).program l = some a → _
      by_cases hj : j = i
      · rw [if_pos hj, hs]; simp only [hprog]; exact r.plain i l a fd
      · rw [if_neg hj]; exact r.plain j l a fd
    · intro j
      show Place' env n c h0 I ((O.workers i).step env n c O.cells).2 (if j = i then ((O.workers i).step env n c O.cells).1 else O.workers j) (partOf j order)
      rw [hs]
      by_cases hj : j = i
      · rw [if_pos hj, hj]; exact hpl
      · rw [if_neg hj]; exact r.place j
  -- a step that adds an access, and makes the change of the access
  have loud : ∀ W s' a, (O.workers i).step env n c O.cells = (W, s') → (O.workers i).current = some a → W.program = (O.workers i).program → Only h0 I s' → Grows O.cells s' →
      (a.alone env n c (I.value O.cells.heap)).2 = I.value s'.heap →
      Place' env n c h0 I s' W (partOf i order ++ [(a, (a.alone env n c (I.value O.cells.heap)).1)]) → ∃ more, Running env n c h0 I (O.step env n c i) (order ++ more) := by
    intro W s' a hs hca hprog ho hg hv hpl
    refine ⟨[(i, a, (a.alone env n c (I.value O.cells.heap)).1)], ?_⟩
    refine ⟨?_, ?_, ?_, ?_, ?_⟩
    · show Only h0 I ((O.workers i).step env n c O.cells).2; rw [hs]; exact ho
    · show Serial _ _ _ _ _ (I.value ((O.workers i).step env n c O.cells).2.heap); rw [hs]; simp only []; rw [← hv]; exact r.serial.snoc i a
    · intro j l b fd
      show (if j = i then ((O.workers i).step env n c O.cells).1 else O.workers j).program l = some b → _
      by_cases hj : j = i
      · rw [if_pos hj, hs]; simp only [hprog]; exact r.plain i l b fd
      · rw [if_neg hj]; exact r.plain j l b fd
    · intro j
      show Place' env n c h0 I ((O.workers i).step env n c O.cells).2 (if j = i then ((O.workers i).step env n c O.cells).1 else O.workers j) (partOf j _)
      rw [hs, partOf_append]
      by_cases hj : j = i
      · rw [if_pos hj, hj, partOf_self]; exact hpl
      · rw [if_neg hj, partOf_other hj, List.append_nil]; exact (r.place j).grow hg
    · intro e he
      rw [List.mem_append, List.mem_singleton] at he
      rcases he with he | rfl
      · exact (r.own e he).imp fun l hl => (congrFun (own W _ hs hprog e.1) l).trans hl
      · exact ⟨(O.workers i).done, (congrFun (own W _ hs hprog i) _).trans hca⟩
  have hget : ∀ {name : String} {fd : FieldDef}, (O.workers i).current = some (.get name) → c.field? name = some fd →
      getAttr c (I.value O.cells.heap) name = definedOr (O.cells.lookup (.str name)) := by
    intro name fd hp hf
    unfold getAttr
    rw [hf, r.only.lookup]
    simp only [r.plain i _ _ fd hp hf]
  have refl : Grows O.cells O.cells := fun _ h => h
  have hpl := r.place i
  cases hcur : (O.workers i).current with
  | none =>
    refine quiet (O.workers i) ?_ rfl hpl
    unfold Worker.step; rw [hcur]
  | some a =>
    generalize hl : partOf i order = l at hpl quiet loud
    cases hpl with
    | idle hnow =>
      have hs : (O.workers i).step env n c O.cells = ((O.workers i).begin_ env n c O.cells a, O.cells) := by
        unfold Worker.step; rw [hcur]; simp only [hnow]
      cases a with
      | set name v =>
        cases hf : c.field? name with
        | none =>
          have hb : (O.workers i).begin_ env n c O.cells (.set name v) = (O.workers i).finish (.set name v) (.error (.other "AttributeError")) := by
            unfold Worker.begin_; simp only [hf]
          have ha : (Access.set name v).alone env n c (I.value O.cells.heap) = (.error (.other "AttributeError"), I.value O.cells.heap) := by
            unfold Access.alone setAttr; simp only [hf]; rfl
          refine loud ((O.workers i).finish (.set name v) (.error (.other "AttributeError"))) _ (.set name v) (hs.trans (by rw [hb])) hcur rfl r.only refl ?_ ?_
          · rw [ha]
          · rw [ha]; exact Place'.idle (W := ((O.workers i).finish (.set name v) (.error (.other "AttributeError")))) rfl
        | some fd =>
          have hg : fd.fget = none := r.plain i _ _ fd hcur hf
          cases hw : preSet env n fd.field v with
          | error e =>
            have hb : (O.workers i).begin_ env n c O.cells (.set name v) = (O.workers i).finish (.set name v) (.error e) := by
              unfold Worker.begin_; simp only [hf, hw]
            have ha : (Access.set name v).alone env n c (I.value O.cells.heap) = (.error e, I.value O.cells.heap) := by
              unfold Access.alone setAttr; simp only [hf, hg, hw]; rfl
            refine loud ((O.workers i).finish (.set name v) (.error e)) _ (.set name v) (hs.trans (by rw [hb])) hcur rfl r.only refl ?_ ?_
            · rw [ha]
            · rw [ha]; exact Place'.idle (W := ((O.workers i).finish (.set name v) (.error e))) rfl
          | ok w =>
            have hb : (O.workers i).begin_ env n c O.cells (.set name v) = { O.workers i with now := .storing name w O.cells.attrs.converted } := by
              unfold Worker.begin_; simp only [hf, hw]
            have hat : O.cells.attrs.converted = I.converted := by rw [r.only.heap]; rfl
            refine quiet { O.workers i with now := .storing name w O.cells.attrs.converted } (hs.trans (by rw [hb])) rfl ?_
            rw [hat]
            exact Place'.storing (W := { O.workers i with now := .storing name w I.converted }) rfl hcur hf hw
      | get name =>
        cases hf : c.field? name with
        | none =>
          have hb : (O.workers i).begin_ env n c O.cells (.get name) = (O.workers i).finish (.get name) (.error (.other "AttributeError")) := by
            unfold Worker.begin_; simp only [hf]
          have ha : (Access.get name).alone env n c (I.value O.cells.heap) = (.error (.other "AttributeError"), I.value O.cells.heap) := by
            unfold Access.alone getAttr; simp only [hf]
          refine loud ((O.workers i).finish (.get name) (.error (.other "AttributeError"))) _ (.get name) (hs.trans (by rw [hb])) hcur rfl r.only refl ?_ ?_
          · rw [ha]
          · rw [ha]; exact Place'.idle (W := ((O.workers i).finish (.get name) (.error (.other "AttributeError")))) rfl
        | some fd =>
          have hb : (O.workers i).begin_ env n c O.cells (.get name) = { O.workers i with now := .reading name [O.cells] } := by
            unfold Worker.begin_; simp only [hf]
          refine quiet { O.workers i with now := .reading name [O.cells] } (hs.trans (by rw [hb])) rfl ?_
          refine Place'.early (W := { O.workers i with now := .reading name [O.cells] }) rfl hcur hf ?_ (by simp) (by simp) ?_
          · intro x hx; simp only [List.mem_singleton] at hx; rw [hx]; exact r.only
          · intro x hx; simp at hx
    | @storing name v w fd hnow hp hf hw =>
      have hg : fd.fget = none := r.plain i _ _ fd hp hf
      have hs : (O.workers i).step env n c O.cells =
          ((O.workers i).finish (.set name v) (.ok .none), { O.cells with heap := O.cells.heap.wr I.converted ((O.cells.heap.rd I.converted).set (.str name) w) }) := by
        unfold Worker.step; rw [hp]; simp only [hnow]
      have hwr := HInst.wr_converted r.only.ok ((O.cells.heap.rd I.converted).set (.str name) w)
      have ho : Only h0 I { O.cells with heap := O.cells.heap.wr I.converted ((O.cells.heap.rd I.converted).set (.str name) w) } := by
        refine ⟨?_, hwr.1, ?_, ?_⟩
        · show (⟨_, O.cells.attrs, O.cells.map0, O.cells.map1, O.cells.map2⟩ : Cells) = _
          rw [r.only.heap]; rfl
        · show (O.cells.heap.wr _ _).rd _ = _
          rw [rd_wr _ _ _ _ r.only.ok.converted, if_neg r.only.ok.rc, r.only.raw]
        · show (O.cells.heap.wr _ _).rd _ = _
          rw [rd_wr _ _ _ _ r.only.ok.converted, if_neg (Ne.symm r.only.ok.cv), r.only.valid]
      have ha : (Access.set name v).alone env n c (I.value O.cells.heap) =
          (.ok .none, { I.value O.cells.heap with converted := (I.value O.cells.heap).converted.set (.str name) w }) := by
        unfold Access.alone setAttr; simp only [hf, hg, hw]; rfl
      refine loud _ _ (.set name v) hs hp rfl ho ?_ ?_ ?_
      · intro k hk
        rw [ho.lookup]
        rw [r.only.lookup] at hk
        show ((I.value (O.cells.heap.wr _ _)).lookup k).isSome
        rw [hwr.2.2]
        unfold Inst.lookup at hk ⊢
        simp only [] at hk ⊢
        cases hr : Dict.get? (I.value O.cells.heap).raw k with
        | some v => rfl
        | none =>
          rw [hr] at hk
          simp only [] at hk ⊢
          by_cases hkn : k = .str name
          · rw [hkn, Dict.get?_set_self]; rfl
          · rw [Dict.get?_set_ne _ _ (Ne.symm hkn)]; exact hk
      · rw [ha]; exact hwr.2.2.symm
      · rw [ha]; exact Place'.idle (W := (O.workers i).finish (.set name v) (.ok .none)) rfl
    | @early name fd ms hnow hp hf hm hl0 hl9 h3 =>
      have hs : (O.workers i).step env n c O.cells = ({ O.workers i with now := .reading name (ms ++ [O.cells]) }, O.cells) := by
        unfold Worker.step; rw [hp]; simp only [hnow]
        rw [if_pos (by omega)]
      have hm' : ∀ x ∈ ms ++ [O.cells], Only h0 I x := by
        intro x hx
        simp only [List.mem_append, List.mem_singleton] at hx
        rcases hx with hx | rfl
        · exact hm x hx
        · exact r.only
      have hlast : (ms ++ [O.cells])[ms.length]? = some O.cells := by simp
      have hal : (Access.get name).alone env n c (I.value O.cells.heap) = (definedOr (O.cells.lookup (.str name)), I.value O.cells.heap) := by
        unfold Access.alone; simp only [hget hp hf]
      by_cases h_3 : ms.length = 3
      · cases hlk : O.cells.lookup (.str name) with
        | none =>
          refine loud _ _ (.get name) hs hp rfl r.only refl ?_ ?_
          · rw [hal]
          · rw [hal, hlk]
            exact Place'.missed (W := { O.workers i with now := .reading name (ms ++ [O.cells]) }) rfl hp hf hm' (by simp; omega) (h_3 ▸ hlast) hlk
        | some v =>
          refine quiet _ hs rfl ?_
          refine Place'.early (W := { O.workers i with now := .reading name (ms ++ [O.cells]) }) rfl hp hf hm' (by simp) (by simp; omega) ?_
          intro x hx
          rw [h_3] at hlast
          rw [hlast] at hx
          injection hx with hx
          rw [← hx, hlk]
          exact ⟨rfl, rfl⟩
      · by_cases h_9 : ms.length = 9
        · obtain ⟨x, hx⟩ : ∃ x, ms[3]? = some x := by
            cases hx : ms[3]? with
            | some x => exact ⟨x, rfl⟩
            | none => rw [List.getElem?_eq_none_iff] at hx; omega
          have := h3 x hx
          have hx' : (ms ++ [O.cells])[3]? = some x := by rw [List.getElem?_append_left (by omega)]; exact hx
          cases hlk : O.cells.lookup (.str name) with
          | none => rw [hlk] at this; cases this.2
          | some v =>
            refine loud _ _ (.get name) hs hp rfl r.only refl ?_ ?_
            · rw [hal]
            · rw [hal, hlk]
              exact Place'.found (W := { O.workers i with now := .reading name (ms ++ [O.cells]) }) rfl hp hf hm' (by simp; omega) hx' this.1 (h_9 ▸ hlast) hlk
        · refine quiet _ hs rfl ?_
          refine Place'.early (W := { O.workers i with now := .reading name (ms ++ [O.cells]) }) rfl hp hf hm' (by simp) (by simp; omega) ?_
          intro x hx
          by_cases hlt : 3 < ms.length
          · rw [List.getElem?_append_left hlt] at hx
            exact h3 x hx
          · rw [List.getElem?_eq_none_iff.mpr (by simp; omega)] at hx; cases hx
    | @missed name fd ms x hnow hp hf hm hl1 h3 hx =>
      have hlen : 3 < ms.length := by
        cases hlt : decide (3 < ms.length) with
        | true => exact of_decide_eq_true hlt
        | false => rw [List.getElem?_eq_none_iff.mpr (by have := of_decide_eq_false hlt; omega)] at h3; cases h3
      have hm' : ∀ x ∈ ms ++ [O.cells], Only h0 I x := by
        intro x hx
        simp only [List.mem_append, List.mem_singleton] at hx
        rcases hx with hx | rfl
        · exact hm x hx
        · exact r.only
      have hx' : (ms ++ [O.cells])[3]? = some x := by rw [List.getElem?_append_left hlen]; exact h3
      by_cases hlt : ms.length < 11
      · have hs : (O.workers i).step env n c O.cells = ({ O.workers i with now := .reading name (ms ++ [O.cells]) }, O.cells) := by
          unfold Worker.step; rw [hp]; simp only [hnow]
          rw [if_pos hlt]
        refine quiet _ hs rfl ?_
        exact Place'.missed (W := { O.workers i with now := .reading name (ms ++ [O.cells]) }) rfl hp hf hm' (by simp; omega) hx' hx
      · have hs : (O.workers i).step env n c O.cells = ((O.workers i).finish (.get name) (readBy (fun i => (ms ++ [O.cells])[i]?.getD O.cells) name), O.cells) := by
          unfold Worker.step; rw [hp]; simp only [hnow]
          rw [if_neg hlt]
        have hall : ∀ j : Nat, Only h0 I ((ms ++ [O.cells])[j]?.getD O.cells) := by
          intro j
          cases hj : (ms ++ [O.cells])[j]? with
          | none => exact r.only
          | some y => exact hm' y (List.mem_of_getElem? hj)
        have hrd : readBy (fun i => (ms ++ [O.cells])[i]?.getD O.cells) name = definedOr none := by
          rw [Only.readBy hall]
          simp only [hx', Option.getD_some, hx]
          rfl
        refine quiet _ hs rfl ?_
        rw [hrd]
        exact Place'.idle (W := (O.workers i).finish (.get name) (definedOr none)) rfl
    | @found name fd ms x y v hnow hp hf hm hl1 h3 hx h9 hy =>
      have hlen : 9 < ms.length := by
        cases hlt : decide (9 < ms.length) with
        | true => exact of_decide_eq_true hlt
        | false => rw [List.getElem?_eq_none_iff.mpr (by have := of_decide_eq_false hlt; omega)] at h9; cases h9
      have hm' : ∀ x ∈ ms ++ [O.cells], Only h0 I x := by
        intro x hx
        simp only [List.mem_append, List.mem_singleton] at hx
        rcases hx with hx | rfl
        · exact hm x hx
        · exact r.only
      have hx' : (ms ++ [O.cells])[3]? = some x := by rw [List.getElem?_append_left (by omega)]; exact h3
      have hy' : (ms ++ [O.cells])[9]? = some y := by rw [List.getElem?_append_left hlen]; exact h9
      by_cases hlt : ms.length < 11
      · have hs : (O.workers i).step env n c O.cells = ({ O.workers i with now := .reading name (ms ++ [O.cells]) }, O.cells) := by
          unfold Worker.step; rw [hp]; simp only [hnow]
          rw [if_pos hlt]
        refine quiet _ hs rfl ?_
        exact Place'.found (W := { O.workers i with now := .reading name (ms ++ [O.cells]) }) rfl hp hf hm' (by simp; omega) hx' hx hy' hy
      · have hs : (O.workers i).step env n c O.cells = ((O.workers i).finish (.get name) (readBy (fun i => (ms ++ [O.cells])[i]?.getD O.cells) name), O.cells) := by
          unfold Worker.step; rw [hp]; simp only [hnow]
          rw [if_neg hlt]
        have hall : ∀ j : Nat, Only h0 I ((ms ++ [O.cells])[j]?.getD O.cells) := by
          intro j
          cases hj : (ms ++ [O.cells])[j]? with
          | none => exact r.only
          | some y => exact hm' y (List.mem_of_getElem? hj)
        have hrd : readBy (fun i => (ms ++ [O.cells])[i]?.getD O.cells) name = definedOr (some v) := by
          rw [Only.readBy hall]
          simp only [hx', hy', Option.getD_some, hy]
          cases hxx : x.lookup (.str name) with
          | none => rw [hxx] at hx; cases hx
          | some u => rfl
        refine quiet _ hs rfl ?_
        rw [hrd]
        exact Place'.idle (W := (O.workers i).finish (.get name) (definedOr (some v))) rfl

theorem Office.step_program (O : Office) (i j : Nat) : ((O.step env n c i).workers j).program = (O.workers j).program := by
  show (if j = i then ((O.workers i).step env n c O.cells).1 else O.workers j).program = _
  by_cases hj : j = i
  · rw [if_pos hj, hj]
    unfold Worker.step
    cases (O.workers i).current with
    | none => rfl
    | some a =>
      simp only []
      cases (O.workers i).now with
      | idle =>
        simp only []
        unfold Worker.begin_
        cases a with
        | set name v =>
          simp only []
          cases c.field? name with
          | none => rfl
          | some fd => simp only []; cases preSet env n fd.field v <;> rfl
        | get name =>
          simp only []
          cases c.field? name <;> rfl
      | storing => rfl
      | reading name ms => simp only []; split <;> rfl
  · rw [if_neg hj]

theorem Running.run {O : Office} {order : List (Nat × Access × R Val)} (r : Running env n c h0 I O order) (schedule : List Nat) :
    ∃ more, Running env n c h0 I (O.run env n c schedule) (order ++ more) ∧
      (∀ i, ((O.run env n c schedule).workers i).program = (O.workers i).program) ∧
      ∀ s1 s2, schedule = s1 ++ s2 → ∃ o1 o2, order ++ more = o1 ++ o2 ∧ ∀ i, Accounts ((O.run env n c s1).workers i) (partOf i o1) := by
  induction schedule generalizing O order with
  | nil =>
    refine ⟨[], by rw [List.append_nil]; exact r, fun _ => rfl, ?_⟩
    intro s1 s2 hs
    obtain ⟨rfl, rfl⟩ : s1 = [] ∧ s2 = [] := by simpa using hs.symm
    exact ⟨order, [], by simp, fun i => (r.place i).accounts⟩
  | cons i schedule ih =>
    obtain ⟨more, r1⟩ := r.step i
    obtain ⟨more', r2, hprog, hsplit⟩ := ih r1
    refine ⟨more ++ more', by rw [← List.append_assoc]; exact r2, fun j => (hprog j).trans (Office.step_program O i j), ?_⟩
    intro s1 s2 hs
    cases s1 with
    | nil => exact ⟨order, more ++ more', rfl, fun i => (r.place i).accounts⟩
    | cons j s1 =>
      injection hs with hj hs
      subst hj
      obtain ⟨o1, o2, he, hacc⟩ := hsplit s1 s2 hs
      exact ⟨o1, o2, by rw [← List.append_assoc]; exact he, hacc⟩

/-- **C109 (linearizable).** Threads assign and read fields of one instance, in any number, by any programs, by any schedule of their steps.  There is one order of all their calls such that
every call has the result it has when the calls are made one after the other in this order, and the instance is the one they leave; and the order agrees with the clock: at every moment of the
schedule, a first part of it are, for every thread, the calls it has finished, and perhaps the one it has begun. -/
theorem C109_one_order (o : HInst.Ok h0 I) (O : Office) (hs : O.cells = Cells.of h0 I) (hW : ∀ i, (O.workers i).Fresh c) (schedule : List Nat) :
    ∃ order h', Serial env n c (I.value h0) order (I.value h') ∧ (O.run env n c schedule).cells = Cells.of h' I ∧ HInst.Ok h' I ∧
      (∀ i, Accounts ((O.run env n c schedule).workers i) (partOf i order)) ∧ (∀ e ∈ order, ∃ l, (O.workers e.1).program l = some e.2.1) ∧
      ∀ s1 s2, schedule = s1 ++ s2 → ∃ o1 o2, order = o1 ++ o2 ∧ ∀ i, Accounts ((O.run env n c s1).workers i) (partOf i o1) := by
  have start : Running env n c h0 I O [] := by
    refine ⟨?_, ?_, fun i => (hW i).plain, ?_, by simp⟩
    · rw [hs]; exact ⟨rfl, o, rfl, rfl⟩
    · rw [hs]; exact .nil _
    · intro i
      have : partOf i [] = (O.workers i).done := by rw [(hW i).none]; rfl
      rw [this]
      exact .idle (hW i).idle
  obtain ⟨more, r, hprog, hsplit⟩ := start.run schedule
  exact ⟨more, _, r.serial, r.only.heap, r.only.ok, fun i => (r.place i).accounts, fun e he => (r.own e he).imp fun l hl => (congrFun (hprog e.1) l).symm.trans hl, hsplit⟩

/-! ### A field that one thread only assigns -/

theorem Serial.split {V V' : Inst} {o1 o2 : List (Nat × Access × R Val)} {e : Nat × Access × R Val} (s : Serial env n c V (o1 ++ e :: o2) V') :
    ∃ W, Serial env n c V o1 W ∧ e.2.2 = (e.2.1.alone env n c W).1 ∧ Serial env n c (e.2.1.alone env n c W).2 o2 V' := by
  induction o1 generalizing V with
  | nil =>
    cases s with
    | cons i a rest => exact ⟨V, .nil V, rfl, rest⟩
  | cons x o1 ih =>
    cases s with
    | cons i a rest =>
      obtain ⟨W, h1, h2, h3⟩ := ih rest
      exact ⟨W, .cons i a h1, h2, h3⟩

/-- An access of a field that is not calculated, and which does not assign the field `name`. -/
def Harmless (c : ClassDef) (name : String) (a : Access) : Prop := (∀ fd, c.field? a.name = some fd → fd.fget = none) ∧ ∀ v, a ≠ .set name v

theorem alone_keeps {name : String} {a : Access} (ha : ∀ fd, c.field? a.name = some fd → fd.fget = none) (V : Inst) :
    (a.alone env n c V).2.raw = V.raw ∧ ((∀ v, a ≠ .set name v) → Dict.get? (a.alone env n c V).2.converted (.str name) = Dict.get? V.converted (.str name)) := by
  cases a with
  | get x => exact ⟨rfl, fun _ => rfl⟩
  | set x v =>
    show (setAttr env n c V x v).2.raw = _ ∧ (_ → Dict.get? (setAttr env n c V x v).2.converted _ = _)
    unfold setAttr
    cases hf : c.field? x with
    | none => simp
    | some fd =>
      simp only [ha fd hf]
      cases preSet env n fd.field v with
      | error e => simp
      | ok w =>
        refine ⟨rfl, fun hne => ?_⟩
        simp only []
        exact Dict.get?_set_ne _ _ (fun e => hne v (by injection e with e; rw [e]))

theorem Serial.raw {V V' : Inst} {l : List (Nat × Access × R Val)} (s : Serial env n c V l V') (hl : ∀ e ∈ l, ∀ fd, c.field? e.2.1.name = some fd → fd.fget = none) : V'.raw = V.raw := by
  induction s with
  | nil V => rfl
  | cons i a _ ih =>
    rw [ih fun e he => hl e (List.mem_cons_of_mem _ he)]
    exact (alone_keeps (name := "") (hl _ List.mem_cons_self) _).1

theorem Serial.converted {V V' : Inst} {l : List (Nat × Access × R Val)} {name : String} (s : Serial env n c V l V') (hl : ∀ e ∈ l, Harmless c name e.2.1) :
    Dict.get? V'.converted (.str name) = Dict.get? V.converted (.str name) := by
  induction s with
  | nil V => rfl
  | cons i a _ ih =>
    rw [ih fun e he => hl e (List.mem_cons_of_mem _ he)]
    exact (alone_keeps (hl _ List.mem_cons_self).1 _).2 (hl _ List.mem_cons_self).2

/-- The place of a call of a thread in the order. -/
theorem partOf_split {i : Nat} {order : List (Nat × Access × R Val)} {l1 l2 : List (Access × R Val)} {x : Access × R Val} (h : partOf i order = l1 ++ x :: l2) :
    ∃ o1 o2, order = o1 ++ (i, x) :: o2 ∧ partOf i o1 = l1 ∧ partOf i o2 = l2 := by
  induction order generalizing l1 with
  | nil => simp [partOf] at h
  | cons e order ih =>
    obtain ⟨j, y⟩ := e
    by_cases hj : j = i
    · subst hj
      have hp : partOf j ((j, y) :: order) = y :: partOf j order := by simp [partOf]
      rw [hp] at h
      cases l1 with
      | nil =>
        injection h with h1 h2
        exact ⟨[], order, by rw [h1]; rfl, rfl, h2⟩
      | cons z l1 =>
        injection h with h1 h2
        obtain ⟨o1, o2, rfl, e1, e2⟩ := ih h2
        refine ⟨(j, y) :: o1, o2, rfl, ?_, e2⟩
        rw [← e1, ← h1]; simp [partOf]
    · have hp : ∀ l, partOf i ((j, y) :: l) = partOf i l := by intro l; simp [partOf, hj]
      rw [hp] at h
      obtain ⟨o1, o2, rfl, e1, e2⟩ := ih h
      exact ⟨(j, y) :: o1, o2, rfl, by rw [hp]; exact e1, e2⟩

theorem mem_partOf {i : Nat} {order : List (Nat × Access × R Val)} {x : Access × R Val} (h : (i, x) ∈ order) : x ∈ partOf i order := by
  simp only [partOf, List.mem_map, List.mem_filter]
  exact ⟨(i, x), ⟨h, by simp⟩, rfl⟩

/-- After the assignment and harmless accesses, the field has the value. -/
theorem Serial.has {W V' : Inst} {o2 : List (Nat × Access × R Val)} {name : String} {v : Val} {x : Val} (hpl : ∀ fd, c.field? name = some fd → fd.fget = none) (hraw : Dict.get? W.raw (.str name) = none)
    (hr : (((Access.set name v).alone env n c W).1 : R Val) = .ok x) (s : Serial env n c ((Access.set name v).alone env n c W).2 o2 V') (hl : ∀ e ∈ o2, Harmless c name e.2.1) :
    ∃ fd w, c.field? name = some fd ∧ preSet env n fd.field v = .ok w ∧ getAttr c V' name = definedOr (some w) := by
  have h1 := s.raw fun e he => (hl e he).1
  have h2 := s.converted hl
  have h0 := (alone_keeps (env := env) (n := n) (name := name) (a := .set name v) hpl W).1
  unfold Access.alone setAttr at hr h2
  cases hf : c.field? name with
  | none => simp only [hf] at hr; cases hr
  | some fd =>
    simp only [hf, hpl fd hf] at hr h2
    cases hw : preSet env n fd.field v with
    | error e => simp only [hw] at hr; cases hr
    | ok w =>
      refine ⟨fd, w, rfl, hw, ?_⟩
      simp only [hw] at h2
      rw [Dict.get?_set_self] at h2
      unfold getAttr
      simp only [hf, hpl fd hf]
      unfold Inst.lookup
      rw [h1, h0, hraw]
      simp only [h2]

/-- **C109** (no assignment is lost).  A field that one thread only assigns, and that has no pending raw value: when the thread has assigned it and does something else, or nothing, afterwards, the field has the
value, whatever the other threads do with other fields. -/
theorem C109_not_lost (o : HInst.Ok h0 I) (O : Office) (hs : O.cells = Cells.of h0 I) (hW : ∀ i, (O.workers i).Fresh c) (schedule : List Nat)
    (i : Nat) (name : String) (hraw : Dict.get? (h0.rd I.raw) (.str name) = none) (honly : ∀ j l v, j ≠ i → (O.workers j).program l ≠ some (.set name v))
    (v x : Val) (l1 l2 : List (Access × R Val)) (hdone : ((O.run env n c schedule).workers i).done = l1 ++ (.set name v, .ok x) :: l2)
    (hlast : ∀ v, (∀ r, (.set name v, r) ∉ l2) ∧ ((O.run env n c schedule).workers i).current ≠ some (.set name v)) :
    ∃ fd w, c.field? name = some fd ∧ preSet env n fd.field v = .ok w ∧
      ∃ h', (O.run env n c schedule).cells = Cells.of h' I ∧ getAttr c (I.value h') name = definedOr (some w) := by
  obtain ⟨order, h', hser, hcells, hok, hacc, hown, _⟩ := C109_one_order (env := env) (n := n) o O hs hW schedule
  obtain ⟨l3, hl3, hpart⟩ : ∃ l3, (∀ v r, (.set name v, r) ∉ l3) ∧ partOf i order = l1 ++ (.set name v, .ok x) :: l3 := by
    rcases hacc i with e | ⟨a, r, _, hcur, e⟩
    · exact ⟨l2, fun v r => (hlast v).1 r, e.trans hdone⟩
    · refine ⟨l2 ++ [(a, r)], ?_, by rw [e, hdone]; simp⟩
      intro u q hu
      rw [List.mem_append, List.mem_singleton] at hu
      rcases hu with hu | hu
      · exact (hlast u).1 q hu
      · injection hu with hu _
        exact (hlast u).2 (by rw [hcur, hu])
  obtain ⟨o1, o2, rfl, _, e2⟩ := partOf_split hpart
  have plain : ∀ e ∈ o1 ++ (i, .set name v, .ok x) :: o2, ∀ fd, c.field? e.2.1.name = some fd → fd.fget = none := by
    intro e he fd hf
    obtain ⟨l, hl⟩ := hown e he
    exact (hW e.1).plain l _ fd hl hf
  obtain ⟨W, s1, hr, s2⟩ := hser.split
  have hWraw := s1.raw fun e he => plain e (List.mem_append_left _ he)
  obtain ⟨fd, w, hf, hw, hg⟩ := Serial.has (name := name) (v := v) (x := x) (fun fd hf => plain _ (List.mem_append_right _ List.mem_cons_self) fd hf)
    (by rw [hWraw]; exact hraw) hr.symm s2 (by
      intro e he
      refine ⟨plain e (List.mem_append_right _ (List.mem_cons_of_mem _ he)), ?_⟩
      intro u hu
      by_cases hj : e.1 = i
      · refine hl3 u e.2.2 ?_
        rw [← e2, ← hu]
        exact mem_partOf (by rw [← hj]; exact he)
      · obtain ⟨l, hl⟩ := hown e (List.mem_append_right _ (List.mem_cons_of_mem _ he))
        exact honly e.1 l u hj (by rw [hl, hu]))
  exact ⟨fd, w, hf, hw, h', hcells, hg⟩

/-- **C109** (a thread reads what it wrote).  A field that one thread only assigns: when the thread reads it after it has assigned it, it gets the value. -/
theorem C109_reads_own (o : HInst.Ok h0 I) (O : Office) (hs : O.cells = Cells.of h0 I) (hW : ∀ i, (O.workers i).Fresh c) (schedule : List Nat)
    (i : Nat) (name : String) (hraw : Dict.get? (h0.rd I.raw) (.str name) = none) (honly : ∀ j l v, j ≠ i → (O.workers j).program l ≠ some (.set name v))
    (v x : Val) (r : R Val) (l1 l2 l3 : List (Access × R Val)) (hdone : ((O.run env n c schedule).workers i).done = l1 ++ (.set name v, .ok x) :: (l2 ++ (.get name, r) :: l3))
    (hlast : ∀ v r, (.set name v, r) ∉ l2) :
    ∃ fd w, c.field? name = some fd ∧ preSet env n fd.field v = .ok w ∧ r = definedOr (some w) := by
  obtain ⟨order, h', hser, hcells, hok, hacc, hown, _⟩ := C109_one_order (env := env) (n := n) o O hs hW schedule
  obtain ⟨l4, hpart⟩ : ∃ l4, partOf i order = l1 ++ (.set name v, .ok x) :: (l2 ++ (.get name, r) :: l4) := by
    rcases hacc i with e | ⟨a, q, _, _, e⟩
    · exact ⟨l3, e.trans hdone⟩
    · exact ⟨l3 ++ [(a, q)], by rw [e, hdone]; simp⟩
  obtain ⟨o1, o2, rfl, _, e2⟩ := partOf_split hpart
  obtain ⟨o3, o4, rfl, e3, _⟩ := partOf_split e2
  have plain : ∀ e ∈ o1 ++ (i, .set name v, .ok x) :: (o3 ++ (i, .get name, r) :: o4), ∀ fd, c.field? e.2.1.name = some fd → fd.fget = none := by
    intro e he fd hf
    obtain ⟨l, hl⟩ := hown e he
    exact (hW e.1).plain l _ fd hl hf
  obtain ⟨W, s1, hr, s2⟩ := hser.split
  obtain ⟨W', s3, hr', _⟩ := s2.split
  have hWraw := s1.raw fun e he => plain e (List.mem_append_left _ he)
  obtain ⟨fd, w, hf, hw, hg⟩ := Serial.has (name := name) (v := v) (x := x) (fun fd hf => plain _ (List.mem_append_right _ List.mem_cons_self) fd hf)
    (by rw [hWraw]; exact hraw) hr.symm s3 (by
      intro e he
      have he' : e ∈ o1 ++ (i, .set name v, .ok x) :: (o3 ++ (i, .get name, r) :: o4) := List.mem_append_right _ (List.mem_cons_of_mem _ (List.mem_append_left _ he))
      refine ⟨plain e he', ?_⟩
      intro u hu
      by_cases hj : e.1 = i
      · refine hlast u e.2.2 ?_
        rw [← e3, ← hu]
        exact mem_partOf (by rw [← hj]; exact he)
      · obtain ⟨l, hl⟩ := hown e he'
        exact honly e.1 l u hj (by rw [hl, hu]))
  exact ⟨fd, w, hf, hw, hr'.trans hg⟩

end

/-! ## The hypotheses are met, and an assignment that is lost -/

namespace Samples

/-- A thread that does the given accesses one after the other. -/
def script (l : List Access) : Worker := { program := fun done => l[done.length]? }

/-- Two threads: one assigns `qty` and reads it, the other assigns `tag` and reads `qty`. -/
def duo : Office where
  cells := Cells.of cellsP cellsI
  workers i := if i = 0 then script [.set "qty" (.int 8), .get "qty"] else if i = 1 then script [.set "tag" (.str "x"), .get "qty"] else script []

/-- A schedule of their steps. -/
def shifts : List Nat := [0, 1, 1, 1, 1, 1, 1, 1, 1, 1, 1, 0] ++ List.replicate 5 1 ++ List.replicate 12 0

theorem script_fresh {c : ClassDef} {l : List Access} (h : ∀ a ∈ l, ∀ fd, c.field? a.name = some fd → fd.fget = none) : (script l).Fresh c :=
  ⟨fun _ a fd ha => h a (List.mem_of_getElem? ha) fd, rfl, rfl⟩

theorem duo_fresh (i : Nat) : (duo.workers i).Fresh badge := by
  show (if i = 0 then _ else if i = 1 then _ else _ : Worker).Fresh badge
  split
  · refine script_fresh fun a ha fd hf => ?_
    simp only [List.mem_cons, List.not_mem_nil, or_false] at ha
    rcases ha with rfl | rfl <;> · injection hf with hf; subst hf; rfl
  · split
    · refine script_fresh fun a ha fd hf => ?_
      simp only [List.mem_cons, List.not_mem_nil, or_false] at ha
      rcases ha with rfl | rfl <;> · injection hf with hf; subst hf; rfl
    · exact script_fresh (by simp)

-- both threads have finished their two calls; the second one, whose reading began before the assignment, got the new value
example : ((duo.run env 5 badge shifts).workers 0).done = [(.set "qty" (.int 8), .ok .none), (.get "qty", .ok (.int 8))] := rfl
example : ((duo.run env 5 badge shifts).workers 1).done = [(.set "tag" (.str "x"), .ok .none), (.get "qty", .ok (.int 8))] := rfl
example := C109_one_order (env := env) (n := 5) cellsP_ok duo rfl duo_fresh shifts

theorem duo_only (j : Nat) (l : List (Access × R Val)) (v : Val) (hj : j ≠ 0) : (duo.workers j).program l ≠ some (.set "qty" v) := by
  show (if j = 0 then _ else if j = 1 then _ else _ : Worker).program l ≠ _
  rw [if_neg hj]
  intro h
  split at h
  · have := List.mem_of_getElem? h
    simp at this
  · have := List.mem_of_getElem? h
    simp at this

example := C109_not_lost (env := env) (n := 5) cellsP_ok duo rfl duo_fresh shifts 0 "qty" rfl duo_only (.int 8) .none [] [(.get "qty", .ok (.int 8))] rfl
  (fun v => ⟨fun r h => by simp at h, nofun⟩)
example := C109_reads_own (env := env) (n := 5) cellsP_ok duo rfl duo_fresh shifts 0 "qty" rfl duo_only (.int 8) .none (.ok (.int 8)) [] [] [] rfl (by simp)

/-- **C109** (an assignment while another thread validates is lost).  The thread that assigns `m.qty = 9` has looked up the dict of the assigned values, then `m.validate()` of another thread runs, then the value is stored: into a
dict that is not one of the instance any more.  Both calls return without an error; `m.qty` is not 9. -/
theorem C109_counterexample_validate :
    let before := Cells.of cellsP cellsI
    let W := ((script [.set "qty" (.int 9)]).step env 5 badge before).1
    let validated := before.after env 5 badge (.validate {}) []
    (Steps.op env 5 badge (.validate {}) before ([] : List Bool)).1 = .ok () ∧ (W.step env 5 badge validated).1.done = [(.set "qty" (.int 9), .ok .none)] ∧
    (W.step env 5 badge validated).2.lookup (.str "qty") = some (.int 5) := ⟨rfl, rfl, rfl⟩

end Samples
end Verif
