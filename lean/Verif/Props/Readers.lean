import Verif.Core.Readers
import Verif.Props.Interrupt5

/-! # C108: fields read by other threads: lemmas -/
namespace Verif

open DictHeap

/-! ## A reader -/

/-- What a film must satisfy so that a reader finds only contents that satisfy `P`. -/
structure Safe (film : List Cells) (k : Key) (P : Option Val → Prop) : Prop where
  top : ∀ {i j : Nat} {a b : Cells}, i ≤ j → film[i]? = some a → film[j]? = some b → probe (·.map0) a b k = none
  mid : ∀ {i j : Nat} {a b : Cells} {v : Val}, i ≤ j → film[i]? = some a → film[j]? = some b → probe (·.map1) a b k = some v → P (some v)
  low : ∀ {i j i' j' : Nat} {a b a' b' : Cells}, i ≤ j → j ≤ i' → i' ≤ j' → film[i]? = some a → film[j]? = some b → film[i']? = some a' → film[j']? = some b' →
    probe (·.map1) a b k = none → P (probe (·.map2) a' b' k)

theorem Safe.read {film : List Cells} {name : String} {P : Option Val → Prop} (h : Safe film (.str name) P) {moment : Nat → Cells} (hm : Concurrent film moment) :
    ∃ r, P r ∧ (readBy moment name = definedOr r ∨ (r = none ∧ readBy moment name = .error (.other "KeyError") ∧ ∃ v, P (some v))) := by
  obtain ⟨t, ht, hf⟩ := hm
  have top : ∀ i j, i ≤ j → probe (·.map0) (moment i) (moment j) (.str name) = none := fun i j hij => h.top (ht _ _ hij) (hf i) (hf j)
  unfold readBy
  cases hs : seesKey moment (.str name) with
  | false =>
    unfold seesKey at hs
    rw [top 0 1 (by decide)] at hs
    simp only [Bool.or_eq_false_iff, Option.isSome_eq_false_iff, Option.isNone_iff_eq_none] at hs
    have := h.low (ht 2 3 (by decide)) (ht 3 4 (by decide)) (ht 4 5 (by decide)) (hf 2) (hf 3) (hf 4) (hf 5) hs.1.2
    rw [hs.2] at this
    exact ⟨none, this, .inl rfl⟩
  | true =>
    have hv : P (seesValue moment (.str name)) := by
      unfold seesValue
      rw [top 6 7 (by decide)]
      simp only []
      cases hp : probe (·.map1) (moment 8) (moment 9) (.str name) with
      | some v => exact h.mid (ht 8 9 (by decide)) (hf 8) (hf 9) hp
      | none => exact h.low (ht 8 9 (by decide)) (ht 9 10 (by decide)) (ht 10 11 (by decide)) (hf 8) (hf 9) (hf 10) (hf 11) hp
    simp only [if_true]
    cases hx : seesValue moment (.str name) with
    | some v => exact ⟨some v, hx ▸ hv, .inl rfl⟩
    | none =>
      refine ⟨none, hx ▸ hv, .inr ⟨rfl, rfl, ?_⟩⟩
      unfold seesKey at hs
      rw [top 0 1 (by decide)] at hs
      cases hp : probe (·.map1) (moment 2) (moment 3) (.str name) with
      | some v => exact ⟨v, h.mid (ht 2 3 (by decide)) (hf 2) (hf 3) hp⟩
      | none =>
        have := h.low (ht 2 3 (by decide)) (ht 3 4 (by decide)) (ht 4 5 (by decide)) (hf 2) (hf 3) (hf 4) (hf 5) hp
        cases hq : probe (·.map2) (moment 4) (moment 5) (.str name) with
        | some v => exact ⟨v, hq ▸ this⟩
        | none => rw [hp, hq] at hs; cases hs

/-! ## Films in two parts -/

/-- First the cells satisfy `A`, then `B`. -/
def Cut (A B : Cells → Prop) (film : List Cells) : Prop := ∃ l1 l2, film = l1 ++ l2 ∧ (∀ s ∈ l1, A s) ∧ ∀ s ∈ l2, B s

theorem Cut.point {A B : Cells → Prop} {film : List Cells} (h : Cut A B film) : ∃ p : Nat, ∀ (i : Nat) (a : Cells), film[i]? = some a → (i < p → A a) ∧ (p ≤ i → B a) := by
  obtain ⟨l1, l2, rfl, ha, hb⟩ := h
  refine ⟨l1.length, fun i a hi => ⟨fun hp => ?_, fun hp => ?_⟩⟩
  · rw [List.getElem?_append_left hp] at hi
    exact ha _ (List.mem_of_getElem? hi)
  · rw [List.getElem?_append_right hp] at hi
    exact hb _ (List.mem_of_getElem? hi)

/-- Before the layer of validated data is exchanged: `old` is that layer, `C` holds of the dict of pending values. -/
structure Front (I : HInst) (old : Data) (C : Data → Prop) (s : Cells) : Prop where
  map0 : s.map0 = I.raw
  map1 : s.map1 = I.converted
  map2 : s.map2 = I.valid
  raw : s.heap.rd I.raw = []
  valid : s.heap.rd I.valid = old
  pending : C (s.heap.rd I.converted)

/-- Afterwards: the layer of validated data is the dict at `M`, with the content `new`; the pending values are in the same dict as before, or there are none (`E`). -/
structure Back (I : HInst) (old new : Data) (M E : Nat) (C : Data → Prop) (s : Cells) : Prop where
  map0 : s.map0 = I.raw
  map1 : s.map1 = I.converted ∨ s.map1 = E
  map2 : s.map2 = M
  raw : s.heap.rd I.raw = []
  valid : s.heap.rd I.valid = old
  now : s.heap.rd M = new
  gone : s.heap.rd E = []
  pending : C (s.heap.rd I.converted)

theorem Front.weaken {I : HInst} {old : Data} {C C' : Data → Prop} (h : ∀ d, C d → C' d) {s : Cells} (f : Front I old C s) : Front I old C' s :=
  ⟨f.map0, f.map1, f.map2, f.raw, f.valid, h _ f.pending⟩

theorem Back.weaken {I : HInst} {old new : Data} {M E : Nat} {C C' : Data → Prop} (h : ∀ d, C d → C' d) {s : Cells} (f : Back I old new M E C s) : Back I old new M E C' s :=
  ⟨f.map0, f.map1, f.map2, f.raw, f.valid, f.now, f.gone, h _ f.pending⟩

theorem safe_of_cut {I : HInst} {old new : Data} {M E : Nat} {C : Data → Prop} {film : List Cells} {k : Key} {P : Option Val → Prop} (hf : Cut (Front I old C) (Back I old new M E C) film)
    (hC : ∀ d, C d → P ((Dict.get? d k).or (Dict.get? old k))) (hnew : P (Dict.get? new k)) : Safe film k P := by
  have hsome : ∀ d v, C d → Dict.get? d k = some v → P (some v) := fun d v hd e => by have := hC d hd; rw [e] at this; exact this
  have hnone : ∀ d, C d → Dict.get? d k = none → P (Dict.get? old k) := fun d hd e => by have := hC d hd; rw [e] at this; exact this
  obtain ⟨p, hp⟩ := hf.point
  have comm : ∀ (i : Nat) (a : Cells), film[i]? = some a → a.map0 = I.raw ∧ a.heap.rd I.raw = [] ∧ C (a.heap.rd I.converted) ∧ a.heap.rd I.valid = old := by
    intro i a hi
    rcases Nat.lt_or_ge i p with h | h
    · have := (hp i a hi).1 h
      exact ⟨this.map0, this.raw, this.pending, this.valid⟩
    · have := (hp i a hi).2 h
      exact ⟨this.map0, this.raw, this.pending, this.valid⟩
  have one : ∀ (i j : Nat) (a b : Cells), i ≤ j → film[i]? = some a → film[j]? = some b → a.map1 = I.converted ∨ (p ≤ i ∧ b.heap.rd a.map1 = []) := by
    intro i j a b hij hi hj
    rcases Nat.lt_or_ge i p with h | h
    · exact .inl ((hp i a hi).1 h).map1
    · rcases ((hp i a hi).2 h).map1 with e | e
      · exact .inl e
      · exact .inr ⟨h, by rw [e]; exact ((hp j b hj).2 (by omega)).gone⟩
  refine ⟨fun hij hi hj => ?_, fun {i j a b v} hij hi hj hv => ?_, fun {i j i' j' a b a' b'} hij hji hij' hi hj hi' hj' hn => ?_⟩
  · unfold probe
    simp only []
    rw [(comm _ _ hi).1, (comm _ _ hj).2.1]; rfl
  · unfold probe at hv
    simp only [] at hv
    rcases one i j a b hij hi hj with e | ⟨_, e⟩
    · rw [e] at hv; exact hsome _ v (comm _ _ hj).2.2.1 hv
    · rw [e] at hv; cases hv
  · unfold probe at hn ⊢
    simp only [] at hn ⊢
    rcases Nat.lt_or_ge i' p with h' | h'
    · rw [((hp i' a' hi').1 h').map2, (comm _ _ hj').2.2.2]
      rcases one i j a b hij hi hj with e | ⟨h2, _⟩
      · rw [e] at hn; exact hnone _ (comm _ _ hj).2.2.1 hn
      · omega
    · rw [((hp i' a' hi').2 h').map2, ((hp j' b' hj').2 (by omega)).now]
      exact hnew

/-! ## Reasoning about films -/

/-- What holds after a program that is filmed. -/
def Shot (m : Steps Film α) (s : Cells) (o : Film) (Q : α → Cells → Film → Prop) (E : Fault → Cells → Film → Prop) : Prop :=
  (∀ a s' o', m s o = (.ok a, s', o') → Q a s' o') ∧ (∀ f s' o', m s o = (.error f, s', o') → E f s' o')

/-- The film with one more frame. -/
def Film.add (o : Film) (s : Cells) : Film := ⟨o.frames ++ [s]⟩

/-- Frames that satisfy `A` were added. -/
def Adds (A : Cells → Prop) (o o' : Film) : Prop := ∃ l, o'.frames = o.frames ++ l ∧ ∀ s ∈ l, A s

theorem Adds.refl {A : Cells → Prop} (o : Film) : Adds A o o := ⟨[], (List.append_nil _).symm, fun _ h => by cases h⟩

theorem Adds.snoc {A : Cells → Prop} {o o' : Film} (h : Adds A o o') {s : Cells} (hs : A s) : Adds A o (o'.add s) := by
  obtain ⟨l, e, hl⟩ := h
  refine ⟨l ++ [s], ?_, fun x hx => ?_⟩
  · unfold Film.add; simp only []; rw [e, List.append_assoc]
  · rcases List.mem_append.1 hx with h | h
    · exact hl x h
    · rw [List.mem_singleton.1 h]; exact hs

theorem Adds.trans {A : Cells → Prop} {o o' o'' : Film} (h : Adds A o o') (h' : Adds A o' o'') : Adds A o o'' := by
  obtain ⟨l, e, hl⟩ := h
  obtain ⟨l', e', hl'⟩ := h'
  refine ⟨l ++ l', by rw [e', e, List.append_assoc], fun x hx => ?_⟩
  rcases List.mem_append.1 hx with h | h
  · exact hl x h
  · exact hl' x h

theorem Adds.weaken {A B : Cells → Prop} {o o' : Film} (hab : ∀ s, A s → B s) (h : Adds A o o') : Adds B o o' := by
  obtain ⟨l, e, hl⟩ := h
  exact ⟨l, e, fun x hx => hab x (hl x hx)⟩

namespace Shot

variable {s : Cells} {o : Film}

theorem mono {m : Steps Film α} {Q Q' : α → Cells → Film → Prop} {E E' : Fault → Cells → Film → Prop} (h : Shot m s o Q E) (hq : ∀ a s' o', Q a s' o' → Q' a s' o')
    (he : ∀ f s' o', E f s' o' → E' f s' o') : Shot m s o Q' E' :=
  ⟨fun a s' o' e => hq _ _ _ (h.1 _ _ _ e), fun f s' o' e => he _ _ _ (h.2 _ _ _ e)⟩

theorem of_ok {m : Steps Film α} {a : α} {s' : Cells} {o' : Film} {Q : α → Cells → Film → Prop} {E : Fault → Cells → Film → Prop} (hm : m s o = (.ok a, s', o')) (h : Q a s' o') : Shot m s o Q E := by
  refine ⟨fun a' s'' o'' e => ?_, fun f s'' o'' e => ?_⟩
  · rw [hm] at e; injection e with e1 e2; injection e1 with e1; injection e2 with e2 e3; subst e1; subst e2; subst e3; exact h
  · rw [hm] at e; injection e with e1; cases e1

theorem of_error {m : Steps Film α} {f : Fault} {s' : Cells} {o' : Film} {Q : α → Cells → Film → Prop} {E : Fault → Cells → Film → Prop} (hm : m s o = (.error f, s', o')) (h : E f s' o') :
    Shot m s o Q E := by
  refine ⟨fun a' s'' o'' e => ?_, fun f s'' o'' e => ?_⟩
  · rw [hm] at e; injection e with e1; cases e1
  · rw [hm] at e; injection e with e1 e2; injection e1 with e1; injection e2 with e2 e3; subst e1; subst e2; subst e3; exact h

theorem ret {a : α} {Q : α → Cells → Film → Prop} {E : Fault → Cells → Film → Prop} (h : Q a s o) : Shot (Steps.pure a) s o Q E := of_ok rfl h

theorem raise {f : Fault} {Q : α → Cells → Film → Prop} {E : Fault → Cells → Film → Prop} (h : E f s o) : Shot (Steps.throw f : Steps Film α) s o Q E := of_error rfl h

theorem look {g : Cells → α} {Q : α → Cells → Film → Prop} {E : Fault → Cells → Film → Prop} (h : Q (g s) s o) : Shot (Steps.get g) s o Q E := of_ok rfl h

theorem tick {Q : Unit → Cells → Film → Prop} {E : Fault → Cells → Film → Prop} (h : Q () s (o.add s)) : Shot Steps.tick s o Q E := of_ok rfl h

theorem store {g : Cells → Cells} {Q : Unit → Cells → Film → Prop} {E : Fault → Cells → Film → Prop} (h : Q () (g s) (o.add s)) : Shot (Steps.store g) s o Q E := of_ok rfl h

theorem alloc {d : Data} {Q : Nat → Cells → Film → Prop} {E : Fault → Cells → Film → Prop} (h : Q s.heap.length { s with heap := (s.heap.new d).1 } (o.add s)) : Shot (Steps.alloc d) s o Q E :=
  of_ok rfl h

theorem seq {m : Steps Film α} {k : α → Steps Film β} {Q' : α → Cells → Film → Prop} {Q : β → Cells → Film → Prop} {E : Fault → Cells → Film → Prop} (h : Shot m s o Q' E)
    (hk : ∀ a s' o', Q' a s' o' → Shot (k a) s' o' Q E) : Shot (m >>= k) s o Q E := by
  generalize hr : m s o = r
  obtain ⟨x, s1, o1⟩ := r
  cases x with
  | ok a =>
    unfold Shot
    rw [Steps.bind_ok hr]
    exact hk a s1 o1 (h.1 _ _ _ hr)
  | error f => exact of_error (Steps.bind_error hr) (h.2 _ _ _ hr)

theorem ofR {r : R α} {Q : α → Cells → Film → Prop} {E : Fault → Cells → Film → Prop} (h : ∀ a, r = .ok a → Q a s (o.add s)) (he : ∀ e, r = .error e → E (.exc e) s (o.add s)) :
    Shot (Steps.ofR r) s o Q E := by
  cases r with
  | ok a => exact of_ok rfl (h a rfl)
  | error e => exact of_error rfl (he e rfl)

theorem writeAt {a : Nat} {A : Cells → Prop} {o0 : Film} (l : List (Key × Val)) : ∀ {s : Cells} {o : Film} {Q : Unit → Cells → Film → Prop} {E : Fault → Cells → Film → Prop}, Adds A o0 o →
    (∀ l1 l2, l1 ++ l2 = l → A { s with heap := s.heap.wr a ((s.heap.rd a).update l1) }) →
    (∀ o', Adds A o0 o' → Q () { s with heap := s.heap.wr a ((s.heap.rd a).update l) } o') → Shot (Steps.writeAt a l) s o Q E := by
  induction l with
  | nil =>
    intro s o Q E ho _ h
    have := h o ho
    have hn : (s.heap.rd a).update [] = s.heap.rd a := rfl
    rw [hn, Steps.wr_rd] at this
    exact ret this
  | cons kv l ih =>
    intro s o Q E ho hi h
    have step : ∀ l1, ((s.heap.wr a ((s.heap.rd a).set kv.1 kv.2)).wr a (((s.heap.wr a ((s.heap.rd a).set kv.1 kv.2)).rd a).update l1)) =
        s.heap.wr a ((s.heap.rd a).update (kv :: l1)) := by
      intro l1
      by_cases ha : a < s.heap.length
      · rw [Steps.wr_wr, rd_wr _ _ _ _ ha, if_pos rfl]; rfl
      · rw [Steps.wr_out _ _ _ ha, Steps.wr_out _ _ _ ha, Steps.wr_out _ _ _ ha]
    have hs : A s := by
      have := hi [] (kv :: l) rfl
      have hn : (s.heap.rd a).update [] = s.heap.rd a := rfl
      rw [hn, Steps.wr_rd] at this
      exact this
    refine seq (store (Q := fun _ s' o' => s' = { s with heap := s.heap.wr a ((s.heap.rd a).set kv.1 kv.2) } ∧ Adds A o0 o') ⟨rfl, ho.snoc hs⟩) ?_
    rintro _ s' o' ⟨rfl, ho'⟩
    refine ih ho' (fun l1 l2 hl => ?_) fun o2 ho2 => ?_
    · show A { s with heap := _ }
      rw [step]; exact hi (kv :: l1) l2 (by rw [← hl]; rfl)
    · show Q () { s with heap := _ } o2
      rw [step]; exact h o2 ho2

theorem tryData {m : Steps Film α} {g : Errs → Data → Steps Film α} {Q : α → Cells → Film → Prop} {E E' : Fault → Cells → Film → Prop} (h : Shot m s o Q E')
    (hg : ∀ es p s' o', E' (.exc (.data es p)) s' o' → Shot (g es p) s' o' Q E) (he : ∀ f s' o', (∀ es p, f ≠ .exc (.data es p)) → E' f s' o' → E f s' o') : Shot (Steps.tryData m g) s o Q E := by
  generalize hr : m s o = r
  obtain ⟨x, s1, o1⟩ := r
  cases x with
  | ok a => exact of_ok (by unfold Steps.tryData; rw [hr]) (h.1 _ _ _ hr)
  | error f =>
    have hx := h.2 _ _ _ hr
    cases f with
    | interrupt => exact of_error (by unfold Steps.tryData; rw [hr]) (he _ _ _ (by intro es p h; cases h) hx)
    | exc e =>
      cases e with
      | data es p =>
        have : Steps.tryData m g s o = g es p s1 o1 := by unfold Steps.tryData; rw [hr]
        unfold Shot
        rw [this]
        exact hg es p _ _ hx
      | field k ms => exact of_error (by unfold Steps.tryData; rw [hr]) (he _ _ _ (by intro es p h; cases h) hx)
      | compound es => exact of_error (by unfold Steps.tryData; rw [hr]) (he _ _ _ (by intro es p h; cases h) hx)
      | other w => exact of_error (by unfold Steps.tryData; rw [hr]) (he _ _ _ (by intro es p h; cases h) hx)
      | fuel => exact of_error (by unfold Steps.tryData; rw [hr]) (he _ _ _ (by intro es p h; cases h) hx)

theorem tryFinally {m : Steps Film α} {last : Steps Film Unit} {Q Q' : α → Cells → Film → Prop} {E E' : Fault → Cells → Film → Prop} (h : Shot m s o Q' E')
    (hq : ∀ a s' o', Q' a s' o' → Shot last s' o' (fun _ => Q a) E) (he : ∀ f s' o', E' f s' o' → Shot last s' o' (fun _ => E f) E) : Shot (Steps.tryFinally m last) s o Q E := by
  generalize hr : m s o = r
  obtain ⟨x, s1, o1⟩ := r
  generalize hl : last s1 o1 = r2
  obtain ⟨y, s2, o2⟩ := r2
  have hu1 : ∀ u, y = .ok u → Steps.tryFinally m last s o = (x, s2, o2) := by
    rintro u rfl
    unfold Steps.tryFinally
    rw [hr]
    simp only []
    rw [hl]
  have hu2 : ∀ f, y = .error f → Steps.tryFinally m last s o = (.error f, s2, o2) := by
    rintro f rfl
    unfold Steps.tryFinally
    rw [hr]
    simp only []
    rw [hl]
  cases x with
  | ok a =>
    have hx := hq a s1 o1 (h.1 _ _ _ hr)
    cases y with
    | ok u => exact of_ok (hu1 u rfl) (hx.1 _ _ _ hl)
    | error f => exact of_error (hu2 f rfl) (hx.2 _ _ _ hl)
  | error f =>
    have hx := he f s1 o1 (h.2 _ _ _ hr)
    cases y with
    | ok u => exact of_error (hu1 u rfl) (hx.1 _ _ _ hl)
    | error f => exact of_error (hu2 f rfl) (hx.2 _ _ _ hl)

/-- Which outcome it is. -/
theorem exact {m : Steps Film α} {m0 : Steps (List Bool) α} {s0 : Cells} {r0 : Except Fault α} {Q : α → Cells → Film → Prop} {E : Fault → Cells → Film → Prop} (h : Shot m s o Q E)
    (hs : Same m m0) (he : ∀ f s' o', E f s' o' → f ≠ .interrupt) (h0 : m0 s [] = (r0, s0, [])) :
    Shot m s o (fun a s' o' => Q a s' o' ∧ r0 = .ok a ∧ s' = s0) (fun f s' o' => E f s' o' ∧ r0 = .error f ∧ s' = s0) := by
  refine ⟨fun a s' o' e => ?_, fun f s' o' e => ?_⟩
  · have := hs _ _ _ _ _ e nofun
    rw [h0] at this
    injection this with a1 a2; injection a2 with a2
    exact ⟨h.1 _ _ _ e, a1, a2.symm⟩
  · have hx := h.2 _ _ _ e
    have := hs _ _ _ _ _ e (by intro x; injection x with x; exact he _ _ _ hx x)
    rw [h0] at this
    injection this with a1 a2; injection a2 with a2
    exact ⟨hx, a1, a2.symm⟩

end Shot
end Verif
