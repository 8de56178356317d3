import Verif.Py.Val
import Mathlib.Data.Finset.Card
import Mathlib.Data.Finset.Prod
import Mathlib.Data.Finset.Range

/-!
# C43: comparing model instances in a (possibly cyclic) object graph

`Model.__eq__` (`models.py:408-424`) with its memo set.  Instances are heap references; their fields hold
scalars, references or lists.  Scalars are compared by an arbitrary function, which may raise.
-/
namespace Verif.EqGraph

variable {S : Type}

/-- A field value: a scalar, a model instance, or a list. (Cycles go through instances; a list containing
itself is not representable.) -/
inductive GVal (S : Type)
  | none
  | scalar (s : S)
  | ref (a : Nat)
  | list (xs : List (GVal S))

/-- A model instance: its class and its stored fields, in order. -/
structure Obj (S : Type) where
  cls : String
  fields : List (String × GVal S)

/-- The object graph: objects `0 .. length-1`. -/
abbrev Heap (S : Type) := List (Obj S)

/-- `other.get(k)`: a missing value reads `None`. -/
def getF (o : Obj S) (k : String) : GVal S := (Dict.get? o.fields k).getD .none

/-- `(id(self), id(other), get_ident())`. -/
abbrev MKey := Nat × Nat × Nat

/-- Result and memo set afterwards. -/
abbrev Out := R Bool × List MKey

/-- The loop `for k in self: if self.get(k) != other.get(k): return False` (`models.py:417-420`). -/
def fieldsLoop (cmp : GVal S → GVal S → List MKey → Out) (other : Obj S) : List (String × GVal S) → List MKey → Out
  | [], m => (.ok true, m)
  | (k, v) :: fs, m =>
    match cmp v (getF other k) m with
    | (.ok true, m') => fieldsLoop cmp other fs m'
    | r => r

/-- Element-wise comparison of lists. -/
def listLoop (cmp : GVal S → GVal S → List MKey → Out) : List (GVal S) → List (GVal S) → List MKey → Out
  | [], [], m => (.ok true, m)
  | x :: xs, y :: ys, m =>
    match cmp x y m with
    | (.ok true, m') => listLoop cmp xs ys m'
    | r => r
  | _, _, m => (.ok false, m)

/-- `Model.__eq__` (`models.py:408-424`) on two instances: `self is other`, different classes
(`NotImplemented` on both sides, so `==` falls back to identity), memo hit, or the loop, with the key removed in `finally`. -/
def eqObj (cmp : GVal S → GVal S → List MKey → Out) (h : Heap S) (tid a b : Nat) (m : List MKey) : Out :=
  if a = b then (.ok true, m)
  else
    match h[a]?, h[b]? with
    | some oa, some ob =>
      if oa.cls ≠ ob.cls then (.ok false, m)
      else if (a, b, tid) ∈ m then (.ok true, m)
      else
        let r := fieldsLoop cmp ob oa.fields ((a, b, tid) :: m)
        (r.1, r.2.erase (a, b, tid))
    | _, _ => (.error (.other "dangling"), m)

/-- Python `==` of two field values, with fuel for the interpreter stack (`.fuel` = `RecursionError`). -/
def eqV (sc : S → S → R Bool) (h : Heap S) (tid : Nat) : Nat → GVal S → GVal S → List MKey → Out
  | 0, _, _, m => (.error .fuel, m)
  | n + 1, x, y, m =>
    match x, y with
    | .none, .none => (.ok true, m)
    | .scalar s, .scalar t => (sc s t, m)
    | .ref a, .ref b => eqObj (eqV sc h tid n) h tid a b m
    | .list xs, .list ys => listLoop (eqV sc h tid n) xs ys m
    | _, _ => (.ok false, m)

/-! ## No residue -/

theorem fieldsLoop_memo {cmp : GVal S → GVal S → List MKey → Out} (hc : ∀ x y m, (cmp x y m).2 = m) (o : Obj S)
    (fs : List (String × GVal S)) (m : List MKey) : (fieldsLoop cmp o fs m).2 = m := by
  induction fs generalizing m with
  | nil => rfl
  | cons f fs ih =>
    obtain ⟨k, v⟩ := f
    have h := hc v (getF o k) m
    simp only [fieldsLoop]
    generalize cmp v (getF o k) m = r at h
    obtain ⟨r1, r2⟩ := r
    cases r1 with
    | error e => exact h
    | ok b => cases b with
      | false => exact h
      | true => simp only [] at h ⊢; rw [ih, h]

theorem listLoop_memo {cmp : GVal S → GVal S → List MKey → Out} (hc : ∀ x y m, (cmp x y m).2 = m)
    (xs ys : List (GVal S)) (m : List MKey) : (listLoop cmp xs ys m).2 = m := by
  induction xs generalizing ys m with
  | nil => cases ys <;> rfl
  | cons x xs ih =>
    cases ys with
    | nil => rfl
    | cons y ys =>
      have h := hc x y m
      simp only [listLoop]
      generalize cmp x y m = r at h
      obtain ⟨r1, r2⟩ := r
      cases r1 with
      | error e => exact h
      | ok b => cases b with
        | false => exact h
        | true => simp only [] at h ⊢; rw [ih, h]

/-- **C43 (no residue).** Whatever the outcome — equal, different, an exception from comparing two values, or
a `RecursionError` — the memo set after a comparison is what it was before. -/
theorem C43_no_residue (sc : S → S → R Bool) (h : Heap S) (tid n : Nat) (x y : GVal S) (m : List MKey) :
    (eqV sc h tid n x y m).2 = m := by
  induction n generalizing x y m with
  | zero => rfl
  | succ n ih =>
    unfold eqV
    split
    · rfl
    · rfl
    · rename_i a b
      unfold eqObj
      split
      · rfl
      · split
        · split
          · rfl
          · split
            · rfl
            · simp only []
              rw [fieldsLoop_memo ih]
              simp
        · rfl
    · exact listLoop_memo ih _ _ _
    · rfl

/-! ## Other threads -/

/-- The entries of thread `tid`. -/
def own (tid : Nat) (m : List MKey) : List MKey := m.filter fun k => k.2.2 == tid

theorem fieldsLoop_own {cmp : GVal S → GVal S → List MKey → Out} (hc : ∀ x y m, (cmp x y m).2 = m)
    {tid : Nat} {m m' : List MKey} (hm : own tid m = own tid m')
    (ho : ∀ x y m m', own tid m = own tid m' → (cmp x y m).1 = (cmp x y m').1) (o : Obj S) (fs : List (String × GVal S)) :
    (fieldsLoop cmp o fs m).1 = (fieldsLoop cmp o fs m').1 := by
  induction fs with
  | nil => rfl
  | cons f fs ih =>
    obtain ⟨k, v⟩ := f
    have h1 := hc v (getF o k) m
    have h2 := hc v (getF o k) m'
    have h3 := ho v (getF o k) m m' hm
    simp only [fieldsLoop]
    generalize cmp v (getF o k) m = r at *
    generalize cmp v (getF o k) m' = r' at *
    obtain ⟨r1, r2⟩ := r
    obtain ⟨r1', r2'⟩ := r'
    simp only [] at h1 h2 h3
    subst h1 h2 h3
    cases r1 with
    | error e => rfl
    | ok b => cases b with
      | false => rfl
      | true => exact ih

theorem listLoop_own {cmp : GVal S → GVal S → List MKey → Out} (hc : ∀ x y m, (cmp x y m).2 = m)
    {tid : Nat} {m m' : List MKey} (hm : own tid m = own tid m')
    (ho : ∀ x y m m', own tid m = own tid m' → (cmp x y m).1 = (cmp x y m').1) (xs ys : List (GVal S)) :
    (listLoop cmp xs ys m).1 = (listLoop cmp xs ys m').1 := by
  induction xs generalizing ys with
  | nil => cases ys <;> rfl
  | cons x xs ih =>
    cases ys with
    | nil => rfl
    | cons y ys =>
      have h1 := hc x y m
      have h2 := hc x y m'
      have h3 := ho x y m m' hm
      simp only [listLoop]
      generalize cmp x y m = r at *
      generalize cmp x y m' = r' at *
      obtain ⟨r1, r2⟩ := r
      obtain ⟨r1', r2'⟩ := r'
      simp only [] at h1 h2 h3
      subst h1 h2 h3
      cases r1 with
      | error e => rfl
      | ok b => cases b with
        | false => rfl
        | true => exact ih ys

/-- **C43 (threads).** The shared memo set does not let threads influence each other: the result of a comparison
depends only on the entries made by its own thread. -/
theorem C43_thread_independent (sc : S → S → R Bool) (h : Heap S) (tid n : Nat) (x y : GVal S) (m m' : List MKey)
    (hm : own tid m = own tid m') : (eqV sc h tid n x y m).1 = (eqV sc h tid n x y m').1 := by
  induction n generalizing x y m m' with
  | zero => rfl
  | succ n ih =>
    unfold eqV
    split
    · rfl
    · rfl
    · rename_i a b
      unfold eqObj
      split
      · rfl
      · split
        · split
          · rfl
          · have hmem : (a, b, tid) ∈ m ↔ (a, b, tid) ∈ m' := by
              have h1 : ∀ l : List MKey, (a, b, tid) ∈ l ↔ (a, b, tid) ∈ own tid l := by
                intro l; simp [own]
              rw [h1 m, h1 m', hm]
            by_cases hin : (a, b, tid) ∈ m
            · rw [if_pos hin, if_pos (hmem.1 hin)]
            · rw [if_neg hin, if_neg (fun h => hin (hmem.2 h))]
              simp only []
              refine fieldsLoop_own (C43_no_residue sc h tid n) ?_ (fun x y m m' => ih x y m m') _ _
              simp [own] at hm ⊢
              exact hm
        · rfl
    · exact listLoop_own (C43_no_residue sc h tid n) hm (fun x y m m' => ih x y m m') _ _
    · rfl

/-! ## Termination -/

mutual
/-- Nesting depth of lists. -/
def depth : GVal S → Nat
  | .list xs => depthL xs + 1
  | _ => 0
def depthL : List (GVal S) → Nat
  | [] => 0
  | x :: xs => max (depth x) (depthL xs)
end

/-- `D` bounds the nesting of lists in the fields of the objects. -/
def Bounded (h : Heap S) (D : Nat) : Prop := ∀ o ∈ h, ∀ f ∈ o.fields, depth f.2 ≤ D

/-- The pairs of objects that thread `tid` is not comparing yet. -/
def fresh (h : Heap S) (tid : Nat) (m : List MKey) : Finset (Nat × Nat) :=
  (Finset.range h.length ×ˢ Finset.range h.length).filter fun p => (p.1, p.2, tid) ∉ m

theorem fresh_lt (h : Heap S) (tid a b : Nat) (m : List MKey) (ha : a < h.length) (hb : b < h.length)
    (hn : (a, b, tid) ∉ m) : (fresh h tid ((a, b, tid) :: m)).card < (fresh h tid m).card := by
  apply Finset.card_lt_card
  rw [Finset.ssubset_iff_of_subset]
  · refine ⟨(a, b), ?_, ?_⟩
    · simp [fresh, ha, hb, hn]
    · simp [fresh]
  · intro p hp
    simp only [fresh, Finset.mem_filter, List.mem_cons, not_or] at hp ⊢
    exact ⟨hp.1, hp.2.2⟩

def NotFuel (r : Out) : Prop := r.1 ≠ .error .fuel

theorem fieldsLoop_ends {cmp : GVal S → GVal S → List MKey → Out} (hc : ∀ x y m, (cmp x y m).2 = m) (o : Obj S)
    (fs : List (String × GVal S)) (m : List MKey) (h : ∀ f ∈ fs, NotFuel (cmp f.2 (getF o f.1) m)) :
    NotFuel (fieldsLoop cmp o fs m) := by
  induction fs with
  | nil => intro h; cases h
  | cons f fs ih =>
    obtain ⟨k, v⟩ := f
    have h1 := h (k, v) (by simp)
    have h2 := hc v (getF o k) m
    simp only [fieldsLoop]
    simp only [] at h1
    generalize cmp v (getF o k) m = r at *
    obtain ⟨r1, r2⟩ := r
    simp only [] at h2
    subst h2
    cases r1 with
    | error e => exact h1
    | ok b => cases b with
      | false => exact h1
      | true => exact ih fun f hf => h f (by simp [hf])

theorem listLoop_ends {cmp : GVal S → GVal S → List MKey → Out} (hc : ∀ x y m, (cmp x y m).2 = m) (m : List MKey)
    (xs ys : List (GVal S)) (h : ∀ x ∈ xs, ∀ y, NotFuel (cmp x y m)) :
    NotFuel (listLoop cmp xs ys m) := by
  induction xs generalizing ys with
  | nil => cases ys <;> (intro h; cases h)
  | cons x xs ih =>
    cases ys with
    | nil => intro h; cases h
    | cons y ys =>
      have h1 := h x (by simp) y
      have h2 := hc x y m
      simp only [listLoop]
      generalize cmp x y m = r at *
      obtain ⟨r1, r2⟩ := r
      simp only [] at h2
      subst h2
      cases r1 with
      | error e => exact h1
      | ok b => cases b with
        | false => exact h1
        | true => exact ih ys fun f hf => h f (by simp [hf])

theorem depth_mem {xs : List (GVal S)} {x : GVal S} (h : x ∈ xs) : depth x ≤ depthL xs := by
  induction xs with
  | nil => cases h
  | cons y ys ih =>
    simp only [depthL]
    rcases List.mem_cons.1 h with rfl | h
    · exact Nat.le_max_left ..
    · exact Nat.le_trans (ih h) (Nat.le_max_right ..)

/-- A scalar comparison does not itself overflow the stack. -/
def Tame (sc : S → S → R Bool) : Prop := ∀ s t, sc s t ≠ .error .fuel

theorem eqV_ends (sc : S → S → R Bool) (hsc : Tame sc) (h : Heap S) (D : Nat) (hD : Bounded h D) (tid : Nat) (P : Nat) :
    ∀ (d n : Nat) (x y : GVal S) (m : List MKey), depth x ≤ d → (fresh h tid m).card ≤ P → d + P * (D + 1) < n →
      NotFuel (eqV sc h tid n x y m) := by
  induction P using Nat.strongRecOn with
  | _ P ihP =>
    intro d
    induction d using Nat.strongRecOn with
    | _ d ihd =>
      intro n x y m hd hP hn
      cases n with
      | zero => omega
      | succ n =>
        unfold eqV
        split
        · intro h; cases h
        · exact hsc _ _
        · rename_i a b
          unfold eqObj
          split
          · intro h; cases h
          · split
            · rename_i oa ob hoa hob
              split
              · intro h; cases h
              · split
                · intro h; cases h
                · rename_i hnm
                  have ha : a < h.length := by
                    by_contra hlt
                    rw [List.getElem?_eq_none (by omega)] at hoa
                    cases hoa
                  have hb : b < h.length := by
                    by_contra hlt
                    rw [List.getElem?_eq_none (by omega)] at hob
                    cases hob
                  have hlt := fresh_lt h tid a b m ha hb hnm
                  refine fieldsLoop_ends (C43_no_residue sc h tid n) _ _ _ ?_
                  intro f hf
                  have hP1 : P - 1 < P := by omega
                  refine ihP (P - 1) hP1 D n _ _ _ (hD oa (List.mem_of_getElem? hoa) f hf) (by omega) ?_
                  have hmul : P * (D + 1) = (P - 1) * (D + 1) + (D + 1) := by
                    have : P = (P - 1) + 1 := by omega
                    conv_lhs => rw [this]
                    rw [Nat.add_mul, Nat.one_mul]
                  omega
            · intro h; cases h
        · rename_i xs ys
          simp only [depth] at hd
          refine listLoop_ends (C43_no_residue sc h tid n) _ _ _ ?_
          intro x hx y
          have := depth_mem hx
          exact ihd (d - 1) (by omega) n x y m (by omega) hP (by omega)
        · intro h; cases h

/-- **C43 (termination).** Comparing any two values of any finite object graph, cyclic or not, terminates: there is a
bound on the depth of the recursion, computed from the number of objects and the nesting of lists, beyond which
the comparison never runs out of stack, whatever comparisons are already in progress. -/
theorem C43_terminates (sc : S → S → R Bool) (hsc : Tame sc) (h : Heap S) (D : Nat) (hD : Bounded h D) (tid n : Nat)
    (x y : GVal S) (m : List MKey) (hn : depth x + h.length * h.length * (D + 1) < n) :
    (eqV sc h tid n x y m).1 ≠ .error .fuel := by
  refine eqV_ends sc hsc h D hD tid (h.length * h.length) (depth x) n x y m (Nat.le_refl _) ?_ hn
  refine Nat.le_trans (Finset.card_filter_le _ _) ?_
  simp

/-! ## The result is right: greatest simulation -/

/-- Values related field by field; references related by `Rel`. -/
inductive Related (sc : S → S → R Bool) (Rel : Nat → Nat → Prop) : GVal S → GVal S → Prop
  | none : Related sc Rel .none .none
  | scalar {s t} (h : sc s t = .ok true) : Related sc Rel (.scalar s) (.scalar t)
  | same {a} : Related sc Rel (.ref a) (.ref a)
  | ref {a b} (h : Rel a b) : Related sc Rel (.ref a) (.ref b)
  | nil : Related sc Rel (.list []) (.list [])
  | cons {x y xs ys} (h1 : Related sc Rel x y) (h2 : Related sc Rel (.list xs) (.list ys)) :
      Related sc Rel (.list (x :: xs)) (.list (y :: ys))

/-- A relation between objects that may hold coinductively: related objects have the same class, and each stored field of
the first is related to the same field of the second. -/
def Simulation (sc : S → S → R Bool) (h : Heap S) (Rel : Nat → Nat → Prop) : Prop :=
  ∀ a b, Rel a b → ∃ oa ob, h[a]? = some oa ∧ h[b]? = some ob ∧ oa.cls = ob.cls ∧
    ∀ f ∈ oa.fields, Related sc Rel f.2 (getF ob f.1)

theorem Related.mono {sc : S → S → R Bool} {P Q : Nat → Nat → Prop} (h : ∀ a b, P a b → Q a b) {x y : GVal S}
    (hr : Related sc P x y) : Related sc Q x y := by
  induction hr with
  | none => exact .none
  | scalar hs => exact .scalar hs
  | same => exact .same
  | ref hp => exact .ref (h _ _ hp)
  | nil => exact .nil
  | cons _ _ ih1 ih2 => exact .cons ih1 ih2

/-- The comparisons in progress. -/
def inMemo (tid : Nat) (m : List MKey) (a b : Nat) : Prop := (a, b, tid) ∈ m

/-- Simulation up to the comparisons in progress. -/
def SimUpTo (sc : S → S → R Bool) (h : Heap S) (M Rel : Nat → Nat → Prop) : Prop :=
  ∀ a b, Rel a b → ∃ oa ob, h[a]? = some oa ∧ h[b]? = some ob ∧ oa.cls = ob.cls ∧
    ∀ f ∈ oa.fields, Related sc (fun a b => Rel a b ∨ M a b) f.2 (getF ob f.1)

theorem SimUpTo.union {sc : S → S → R Bool} {h : Heap S} {M P Q : Nat → Nat → Prop} (hp : SimUpTo sc h M P)
    (hq : SimUpTo sc h M Q) : SimUpTo sc h M fun a b => P a b ∨ Q a b := by
  rintro a b (hab | hab)
  · obtain ⟨oa, ob, h1, h2, h3, h4⟩ := hp a b hab
    exact ⟨oa, ob, h1, h2, h3, fun f hf => (h4 f hf).mono fun _ _ hh => hh.elim (fun x => Or.inl (Or.inl x)) Or.inr⟩
  · obtain ⟨oa, ob, h1, h2, h3, h4⟩ := hq a b hab
    exact ⟨oa, ob, h1, h2, h3, fun f hf => (h4 f hf).mono fun _ _ hh => hh.elim (fun x => Or.inl (Or.inr x)) Or.inr⟩

/-- Soundness of one comparison. -/
def Sound (sc : S → S → R Bool) (h : Heap S) (tid : Nat) (cmp : GVal S → GVal S → List MKey → Out) : Prop :=
  ∀ x y m, (cmp x y m).1 = .ok true → ∃ Rel, SimUpTo sc h (inMemo tid m) Rel ∧
    Related sc (fun a b => Rel a b ∨ inMemo tid m a b) x y

theorem fieldsLoop_sound {sc : S → S → R Bool} {h : Heap S} {tid : Nat} {cmp : GVal S → GVal S → List MKey → Out}
    (hc : ∀ x y m, (cmp x y m).2 = m) (hs : Sound sc h tid cmp) (o : Obj S) (fs : List (String × GVal S)) (m : List MKey)
    (he : (fieldsLoop cmp o fs m).1 = .ok true) : ∃ Rel, SimUpTo sc h (inMemo tid m) Rel ∧
      ∀ f ∈ fs, Related sc (fun a b => Rel a b ∨ inMemo tid m a b) f.2 (getF o f.1) := by
  induction fs with
  | nil => exact ⟨fun _ _ => False, fun a b h => h.elim, by simp⟩
  | cons f fs ih =>
    obtain ⟨k, v⟩ := f
    have h2 := hc v (getF o k) m
    have h3 := hs v (getF o k) m
    simp only [fieldsLoop] at he
    generalize cmp v (getF o k) m = r at *
    obtain ⟨r1, r2⟩ := r
    simp only [] at h2
    subst h2
    cases r1 with
    | error e => cases he
    | ok b => cases b with
      | false => cases he
      | true =>
        obtain ⟨P, hp1, hp2⟩ := h3 rfl
        obtain ⟨Q, hq1, hq2⟩ := ih he
        refine ⟨_, hp1.union hq1, ?_⟩
        intro f hf
        rcases List.mem_cons.1 hf with rfl | hf
        · exact hp2.mono fun _ _ hh => hh.elim (fun x => Or.inl (Or.inl x)) Or.inr
        · exact (hq2 f hf).mono fun _ _ hh => hh.elim (fun x => Or.inl (Or.inr x)) Or.inr

theorem listLoop_sound {sc : S → S → R Bool} {h : Heap S} {tid : Nat} {cmp : GVal S → GVal S → List MKey → Out}
    (hc : ∀ x y m, (cmp x y m).2 = m) (hs : Sound sc h tid cmp) (xs ys : List (GVal S)) (m : List MKey)
    (he : (listLoop cmp xs ys m).1 = .ok true) : ∃ Rel, SimUpTo sc h (inMemo tid m) Rel ∧
      Related sc (fun a b => Rel a b ∨ inMemo tid m a b) (.list xs) (.list ys) := by
  induction xs generalizing ys with
  | nil =>
    cases ys with
    | nil => exact ⟨fun _ _ => False, fun a b h => h.elim, .nil⟩
    | cons y ys => cases he
  | cons x xs ih =>
    cases ys with
    | nil => cases he
    | cons y ys =>
      have h2 := hc x y m
      have h3 := hs x y m
      simp only [listLoop] at he
      generalize cmp x y m = r at *
      obtain ⟨r1, r2⟩ := r
      simp only [] at h2
      subst h2
      cases r1 with
      | error e => cases he
      | ok b => cases b with
        | false => cases he
        | true =>
          obtain ⟨P, hp1, hp2⟩ := h3 rfl
          obtain ⟨Q, hq1, hq2⟩ := ih ys he
          exact ⟨_, hp1.union hq1, .cons (hp2.mono fun _ _ hh => hh.elim (fun x => Or.inl (Or.inl x)) Or.inr)
            (hq2.mono fun _ _ hh => hh.elim (fun x => Or.inl (Or.inr x)) Or.inr)⟩

theorem eqV_sound (sc : S → S → R Bool) (h : Heap S) (tid n : Nat) : Sound sc h tid (eqV sc h tid n) := by
  induction n with
  | zero => intro x y m he; cases he
  | succ n ih =>
    intro x y m he
    have hno := C43_no_residue sc h tid n
    unfold eqV at he
    split at he
    · exact ⟨fun _ _ => False, fun a b h => h.elim, .none⟩
    · exact ⟨fun _ _ => False, fun a b h => h.elim, .scalar he⟩
    · rename_i a b
      unfold eqObj at he
      split at he
      · rename_i hab; subst hab; exact ⟨fun _ _ => False, fun a b h => h.elim, .same⟩
      · split at he
        · rename_i oa ob hoa hob
          split at he
          · cases he
          · rename_i hcls
            split at he
            · rename_i hin; exact ⟨fun _ _ => False, fun a b h => h.elim, .ref (Or.inr hin)⟩
            · simp only [] at he
              obtain ⟨P, hp1, hp2⟩ := fieldsLoop_sound hno ih _ _ _ he
              refine ⟨fun c d => P c d ∨ (c = a ∧ d = b), ?_, .ref (Or.inl (Or.inr ⟨rfl, rfl⟩))⟩
              have hmono : ∀ c d, P c d ∨ inMemo tid ((a, b, tid) :: m) c d →
                  (P c d ∨ (c = a ∧ d = b)) ∨ inMemo tid m c d := by
                rintro c d (hh | hh)
                · exact Or.inl (Or.inl hh)
                · unfold inMemo at hh ⊢
                  rcases List.mem_cons.1 hh with hh | hh
                  · injection hh with h1 h2
                    injection h2 with h2 h3
                    exact Or.inl (Or.inr ⟨h1, h2⟩)
                  · exact Or.inr hh
              rintro c d (hcd | ⟨rfl, rfl⟩)
              · obtain ⟨oc, od, h1, h2, h3, h4⟩ := hp1 c d hcd
                exact ⟨oc, od, h1, h2, h3, fun f hf => (h4 f hf).mono hmono⟩
              · exact ⟨oa, ob, hoa, hob, not_not.1 hcls, fun f hf => (hp2 f hf).mono hmono⟩
        · cases he
    · exact listLoop_sound hno ih _ _ _ he
    · cases he

theorem fieldsLoop_complete {sc : S → S → R Bool} {Rel : Nat → Nat → Prop} {cmp : GVal S → GVal S → List MKey → Out}
    (hc : ∀ x y m, (cmp x y m).2 = m)
    (hs : ∀ x y m, Related sc Rel x y → (cmp x y m).1 = .ok true ∨ (cmp x y m).1 = .error .fuel) (o : Obj S)
    (fs : List (String × GVal S)) (m : List MKey) (h : ∀ f ∈ fs, Related sc Rel f.2 (getF o f.1)) :
    (fieldsLoop cmp o fs m).1 = .ok true ∨ (fieldsLoop cmp o fs m).1 = .error .fuel := by
  induction fs with
  | nil => exact Or.inl rfl
  | cons f fs ih =>
    obtain ⟨k, v⟩ := f
    have h2 := hc v (getF o k) m
    have h3 := hs v (getF o k) m (h (k, v) (by simp))
    simp only [fieldsLoop]
    generalize cmp v (getF o k) m = r at *
    obtain ⟨r1, r2⟩ := r
    simp only [] at h2 h3
    subst h2
    rcases h3 with rfl | rfl
    · exact ih fun f hf => h f (by simp [hf])
    · exact Or.inr rfl

theorem listLoop_complete {sc : S → S → R Bool} {Rel : Nat → Nat → Prop} {cmp : GVal S → GVal S → List MKey → Out}
    (hc : ∀ x y m, (cmp x y m).2 = m)
    (hs : ∀ x y m, Related sc Rel x y → (cmp x y m).1 = .ok true ∨ (cmp x y m).1 = .error .fuel)
    (xs ys : List (GVal S)) (m : List MKey) (h : Related sc Rel (.list xs) (.list ys)) :
    (listLoop cmp xs ys m).1 = .ok true ∨ (listLoop cmp xs ys m).1 = .error .fuel := by
  induction xs generalizing ys with
  | nil => cases h; exact Or.inl rfl
  | cons x xs ih =>
    cases h with
    | cons h1 h2 =>
      rename_i y ys
      have h4 := hc x y m
      have h3 := hs x y m h1
      simp only [listLoop]
      generalize cmp x y m = r at *
      obtain ⟨r1, r2⟩ := r
      simp only [] at h4 h3
      subst h4
      rcases h3 with rfl | rfl
      · exact ih _ h2
      · exact Or.inr rfl

theorem eqV_complete (sc : S → S → R Bool) (h : Heap S) (tid n : Nat) {Rel : Nat → Nat → Prop} (hsim : Simulation sc h Rel) :
    ∀ x y m, Related sc Rel x y → (eqV sc h tid n x y m).1 = .ok true ∨ (eqV sc h tid n x y m).1 = .error .fuel := by
  induction n with
  | zero => intro x y m _; exact Or.inr rfl
  | succ n ih =>
    intro x y m hr
    have hno := C43_no_residue sc h tid n
    cases hr with
    | none => exact Or.inl rfl
    | scalar hs => exact Or.inl hs
    | same =>
      left
      simp [eqV, eqObj]
    | ref hab =>
      rename_i a b
      obtain ⟨oa, ob, h1, h2, h3, h4⟩ := hsim a b hab
      simp only [eqV, eqObj, h1, h2]
      split
      · exact Or.inl rfl
      · rw [if_neg (not_not.2 h3)]
        split
        · exact Or.inl rfl
        · exact fieldsLoop_complete hno ih _ _ _ h4
    | nil => exact Or.inl rfl
    | cons h1 h2 => exact listLoop_complete hno ih _ _ _ (.cons h1 h2)

/-- **C43 (meaning).** Two instances compare equal iff some simulation relates them: same classes, and each stored
field of the first equal to that of the second, coinductively through cycles. -/
theorem C43_equal_iff_simulated (sc : S → S → R Bool) (hsc : Tame sc) (h : Heap S) (D : Nat) (hD : Bounded h D) (tid n a b : Nat)
    (hn : h.length * h.length * (D + 1) < n) :
    (eqV sc h tid n (.ref a) (.ref b) []).1 = .ok true ↔ a = b ∨ ∃ Rel, Simulation sc h Rel ∧ Rel a b := by
  constructor
  · intro he
    obtain ⟨Rel, h1, h2⟩ := eqV_sound sc h tid n _ _ _ he
    have hmono : ∀ c d, Rel c d ∨ inMemo tid [] c d → Rel c d := by
      rintro c d (hh | hh)
      · exact hh
      · cases hh
    cases h2 with
    | same => exact Or.inl rfl
    | ref hab =>
      refine Or.inr ⟨Rel, ?_, hmono _ _ hab⟩
      intro c d hcd
      obtain ⟨oc, od, h3, h4, h5, h6⟩ := h1 c d hcd
      exact ⟨oc, od, h3, h4, h5, fun f hf => (h6 f hf).mono hmono⟩
  · intro hor
    have hfuel := C43_terminates sc hsc h D hD tid n (.ref a) (.ref b) [] (by simpa [depth] using hn)
    rcases hor with rfl | ⟨Rel, hsim, hab⟩
    · cases n with
      | zero => omega
      | succ n => simp [eqV, eqObj]
    · rcases eqV_complete sc h tid n hsim (.ref a) (.ref b) [] (.ref hab) with h1 | h1
      · exact h1
      · exact absurd h1 hfuel

/-! ## The hypotheses are met -/

/-- Two cyclic pairs: `a.next = b, b.next = a` and `c.next = d, d.next = c`, equal data; and a self-loop that is different. -/
def ring : Heap Nat := [
  ⟨"N", [("v", .scalar 1), ("next", .list [.ref 1])]⟩, ⟨"N", [("v", .scalar 1), ("next", .list [.ref 0])]⟩,
  ⟨"N", [("v", .scalar 1), ("next", .list [.ref 3])]⟩, ⟨"N", [("v", .scalar 1), ("next", .list [.ref 2])]⟩,
  ⟨"N", [("v", .scalar 2), ("next", .list [.ref 4])]⟩]

def natEq (a b : Nat) : R Bool := .ok (a == b)

theorem ring_bounded : Bounded ring 1 := by
  intro o ho f hf
  simp only [ring, List.mem_cons, List.not_mem_nil, or_false] at ho
  rcases ho with rfl | rfl | rfl | rfl | rfl <;>
    (simp only [List.mem_cons, List.not_mem_nil, or_false] at hf
     rcases hf with rfl | rfl <;> simp [depth, depthL])

example : (eqV natEq ring 0 100 (.ref 0) (.ref 2) []).1 = .ok true := rfl
example : (eqV natEq ring 0 100 (.ref 0) (.ref 4) []).1 = .ok false := rfl
example : 0 = 2 ∨ ∃ Rel, Simulation natEq ring Rel ∧ Rel 0 2 :=
  (C43_equal_iff_simulated natEq (by intro s t h; cases h) ring 1 ring_bounded 0 100 0 2 (by decide)).1 rfl
example : (eqV natEq ring 0 100 (.ref 0) (.ref 2) [(7, 8, 1)]).1 = .ok true :=
  (C43_thread_independent natEq ring 0 100 (.ref 0) (.ref 2) [(7, 8, 1)] [] rfl).trans rfl

end Verif.EqGraph
