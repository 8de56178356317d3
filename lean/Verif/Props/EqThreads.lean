import Verif.Lib.EqThreads

/-!
# C90: concurrent comparisons under every schedule
-/
namespace Verif.EqGraph

variable {S : Type}

/-! ## Running a thread alone -/

/-- The thread makes `n` operations alone, on its own set. -/
def alone (m : List MKey) (p : Prog) : Nat → List MKey × Prog
  | 0 => (m, p)
  | n + 1 => alone (stepP m p).1 (stepP m p).2 n

theorem alone_done (m : List MKey) (rs : List (R Bool)) (n : Nat) : alone m (.done rs) n = (m, .done rs) := by
  induction n with
  | zero => rfl
  | succ n ih => exact ih

theorem alone_add (m : List MKey) (p : Prog) (i j : Nat) : alone m p (i + j) = alone (alone m p i).1 (alone m p i).2 j := by
  induction i generalizing m p with
  | zero => rw [Nat.zero_add]; rfl
  | succ i ih => rw [Nat.succ_add]; exact ih _ _

/-- `p` on `m` reaches `q` on `m'`, alone. -/
def Reaches (m : List MKey) (p : Prog) (m' : List MKey) (q : Prog) : Prop := ∃ n, alone m p n = (m', q)

theorem Reaches.refl (m : List MKey) (p : Prog) : Reaches m p m p := ⟨0, rfl⟩

theorem Reaches.trans {m1 m2 m3 : List MKey} {p1 p2 p3 : Prog} (h1 : Reaches m1 p1 m2 p2) (h2 : Reaches m2 p2 m3 p3) :
    Reaches m1 p1 m3 p3 := by
  obtain ⟨i, h1⟩ := h1
  obtain ⟨j, h2⟩ := h2
  exact ⟨i + j, by rw [alone_add, h1]; exact h2⟩

theorem Reaches.step {m m' : List MKey} {p q : Prog} (h : Reaches (stepP m p).1 (stepP m p).2 m' q) : Reaches m p m' q := by
  obtain ⟨n, h⟩ := h
  exact ⟨n + 1, h⟩

/-- The program `P` computes the comparison `f`: it ends with the result of `f`, and with the set as it was. -/
def Computes (P : Cont → Prog) (f : List MKey → Out) : Prop := ∀ m c, Reaches m (P c) m (c (f m).1)

theorem fieldsP_computes {cmp : GVal S → GVal S → Cont → Prog} {f : GVal S → GVal S → List MKey → Out}
    (hc : ∀ x y, Computes (cmp x y) (f x y)) (hf : ∀ x y m, (f x y m).2 = m) (o : Obj S) (fs : List (String × GVal S)) :
    Computes (fieldsP cmp o fs) (fieldsLoop f o fs) := by
  induction fs with
  | nil => intro m c; exact Reaches.refl _ _
  | cons kv fs ih =>
    obtain ⟨k, v⟩ := kv
    intro m c
    refine Reaches.trans (hc v (getF o k) m _) ?_
    have h2 := hf v (getF o k) m
    simp only [fieldsLoop]
    generalize f v (getF o k) m = r at h2
    obtain ⟨r1, r2⟩ := r
    simp only at h2
    subst h2
    cases r1 with
    | error e => exact Reaches.refl _ _
    | ok b => cases b with
      | false => exact Reaches.refl _ _
      | true => exact ih _ _

theorem listP_computes {cmp : GVal S → GVal S → Cont → Prog} {f : GVal S → GVal S → List MKey → Out}
    (hc : ∀ x y, Computes (cmp x y) (f x y)) (hf : ∀ x y m, (f x y m).2 = m) (xs ys : List (GVal S)) :
    Computes (listP cmp xs ys) (listLoop f xs ys) := by
  induction xs generalizing ys with
  | nil => cases ys <;> (intro m c; exact Reaches.refl _ _)
  | cons x xs ih =>
    cases ys with
    | nil => intro m c; exact Reaches.refl _ _
    | cons y ys =>
      intro m c
      refine Reaches.trans (hc x y m _) ?_
      have h2 := hf x y m
      simp only [listLoop]
      generalize f x y m = r at h2
      obtain ⟨r1, r2⟩ := r
      simp only at h2
      subst h2
      cases r1 with
      | error e => exact Reaches.refl _ _
      | ok b => cases b with
        | false => exact Reaches.refl _ _
        | true => exact ih _ _ _

theorem eqP_computes (sc : S → S → R Bool) (h : Heap S) (tid n : Nat) : ∀ x y, Computes (eqP sc h tid n x y) (eqV sc h tid n x y) := by
  induction n with
  | zero => intro x y m c; exact Reaches.refl _ _
  | succ n ih =>
    intro x y m c
    cases x <;> cases y <;> try exact Reaches.refl _ _
    case ref.ref a b =>
      show Reaches m (objP (eqP sc h tid n) h tid a b c) m (c (eqObj (eqV sc h tid n) h tid a b m).1)
      unfold objP eqObj
      by_cases hab : a = b
      · rw [if_pos hab, if_pos hab]; exact Reaches.refl _ _
      · rw [if_neg hab, if_neg hab]
        cases hoa : h[a]? with
        | none => exact Reaches.refl _ _
        | some oa =>
          cases hob : h[b]? with
          | none => exact Reaches.refl _ _
          | some ob =>
            simp only
            by_cases hcls : oa.cls ≠ ob.cls
            · rw [if_pos hcls, if_pos hcls]; exact Reaches.refl _ _
            · rw [if_neg hcls, if_neg hcls]
              apply Reaches.step
              simp only [stepP]
              by_cases hm : (a, b, tid) ∈ m
              · simp only [hm, decide_true, if_true]; exact Reaches.refl _ _
              · simp only [hm, decide_false, if_false, Bool.false_eq_true]
                apply Reaches.step
                simp only [stepP, hm, if_false]
                refine Reaches.trans (fieldsP_computes ih (C43_no_residue sc h tid n) ob oa.fields ((a, b, tid) :: m) _) ?_
                apply Reaches.step
                simp only [stepP, List.mem_cons, true_or, if_true, List.erase_cons_head]
                exact Reaches.refl _ _
    case list.list xs ys => exact listP_computes ih (C43_no_residue sc h tid n) _ _ m c

theorem workP_computes (sc : S → S → R Bool) (h : Heap S) (tid n : Nat) (w : List (GVal S × GVal S)) :
    ∀ rs, Reaches [] (workP sc h tid n w rs) [] (.done (rs ++ w.map fun p => (eqV sc h tid n p.1 p.2 []).1)) := by
  induction w with
  | nil => intro rs; simp only [List.map_nil, List.append_nil]; exact Reaches.refl _ _
  | cons p w ih =>
    obtain ⟨x, y⟩ := p
    intro rs
    refine Reaches.trans (eqP_computes sc h tid n x y [] _) ?_
    have := ih (rs ++ [(eqV sc h tid n x y []).1])
    simpa using this

/-! ## Only its own keys -/

/-- The program touches only keys of thread `t`. -/
inductive Own (t : Nat) : Prog → Prop
  | done (rs : List (R Bool)) : Own t (.done rs)
  | test {k : MKey} {c : Bool → Prog} (hk : k.2.2 = t) (h : ∀ b, Own t (c b)) : Own t (.test k c)
  | add {k : MKey} {c : Prog} (hk : k.2.2 = t) (h : Own t c) : Own t (.add k c)
  | remove {k : MKey} {c e : Prog} (hk : k.2.2 = t) (h : Own t c) (he : Own t e) : Own t (.remove k c e)

theorem fieldsP_own {t : Nat} {cmp : GVal S → GVal S → Cont → Prog} (hc : ∀ x y c, (∀ r, Own t (c r)) → Own t (cmp x y c)) (o : Obj S)
    (fs : List (String × GVal S)) : ∀ c, (∀ r, Own t (c r)) → Own t (fieldsP cmp o fs c) := by
  induction fs with
  | nil => intro c h; exact h _
  | cons kv fs ih =>
    obtain ⟨k, v⟩ := kv
    intro c h
    refine hc _ _ _ ?_
    intro r
    cases r with
    | error e => exact h _
    | ok b => cases b with
      | false => exact h _
      | true => exact ih c h

theorem listP_own {t : Nat} {cmp : GVal S → GVal S → Cont → Prog} (hc : ∀ x y c, (∀ r, Own t (c r)) → Own t (cmp x y c))
    (xs ys : List (GVal S)) : ∀ c, (∀ r, Own t (c r)) → Own t (listP cmp xs ys c) := by
  induction xs generalizing ys with
  | nil => cases ys <;> (intro c h; exact h _)
  | cons x xs ih =>
    cases ys with
    | nil => intro c h; exact h _
    | cons y ys =>
      intro c h
      refine hc _ _ _ ?_
      intro r
      cases r with
      | error e => exact h _
      | ok b => cases b with
        | false => exact h _
        | true => exact ih ys c h

theorem eqP_own (sc : S → S → R Bool) (h : Heap S) (t n : Nat) : ∀ x y c, (∀ r, Own t (c r)) → Own t (eqP sc h t n x y c) := by
  induction n with
  | zero => intro x y c hc; exact hc _
  | succ n ih =>
    intro x y c hc
    unfold eqP
    split
    · exact hc _
    · exact hc _
    · rename_i a b
      unfold objP
      split
      · exact hc _
      · split
        · split
          · exact hc _
          · refine .test rfl ?_
            intro hit
            cases hit with
            | true => exact hc _
            | false => exact .add rfl (fieldsP_own ih _ _ _ fun r => .remove rfl (hc _) (hc _))
        · exact hc _
    · exact listP_own ih _ _ _ hc
    · exact hc _

theorem workP_own (sc : S → S → R Bool) (h : Heap S) (t n : Nat) (w : List (GVal S × GVal S)) :
    ∀ rs, Own t (workP sc h t n w rs) := by
  induction w with
  | nil => intro rs; exact .done _
  | cons p w ih => intro rs; exact eqP_own sc h t n _ _ _ fun r => ih _

/-! ## Interleaving -/

theorem mem_own {t : Nat} {m : List MKey} {k : MKey} (hk : k.2.2 = t) : k ∈ own t m ↔ k ∈ m := by simp [own, hk]

theorem own_erase_self {t : Nat} {k : MKey} (hk : k.2.2 = t) (m : List MKey) : own t (m.erase k) = (own t m).erase k := by
  induction m with
  | nil => rfl
  | cons a m ih =>
    by_cases ha : a = k
    · subst ha
      simp [own, hk]
    · rw [List.erase_cons_tail (by simpa using ha)]
      by_cases hat : a.2.2 = t
      · simp only [own] at ih ⊢
        rw [List.filter_cons_of_pos (by simp [hat]), List.filter_cons_of_pos (by simp [hat]), List.erase_cons_tail (by simpa using ha), ih]
      · simp only [own] at ih ⊢
        rw [List.filter_cons_of_neg (by simp [hat]), List.filter_cons_of_neg (by simp [hat]), ih]

theorem own_erase_other {t : Nat} {k : MKey} (hk : k.2.2 ≠ t) (m : List MKey) : own t (m.erase k) = own t m := by
  induction m with
  | nil => rfl
  | cons a m ih =>
    by_cases ha : a = k
    · subst ha
      simp [own, hk]
    · rw [List.erase_cons_tail (by simpa using ha)]
      simp only [own, List.filter_cons] at ih ⊢
      rw [ih]

/-- An operation of thread `t` does to the keys of `t` what it does alone. -/
theorem stepP_own {t : Nat} {p : Prog} (hp : Own t p) (m : List MKey) :
    own t (stepP m p).1 = (stepP (own t m) p).1 ∧ (stepP m p).2 = (stepP (own t m) p).2 ∧ Own t (stepP m p).2 := by
  cases hp with
  | done rs => exact ⟨rfl, rfl, .done _⟩
  | test hk h =>
    refine ⟨rfl, ?_, h _⟩
    simp only [stepP, mem_own hk]
  | @add k c hk h =>
    refine ⟨?_, rfl, h⟩
    simp only [stepP, mem_own hk]
    split
    · rfl
    · simp [own, hk]
  | @remove k c e hk h he =>
    simp only [stepP, mem_own hk]
    split
    · exact ⟨own_erase_self hk m, rfl, h⟩
    · exact ⟨rfl, rfl, he⟩

/-- An operation of another thread leaves the keys of `t` alone. -/
theorem stepP_other {t u : Nat} (hut : u ≠ t) {p : Prog} (hp : Own u p) (m : List MKey) : own t (stepP m p).1 = own t m := by
  cases hp with
  | done rs => rfl
  | test hk h => rfl
  | @add k c hk h =>
    simp only [stepP]
    split
    · rfl
    · have : ¬ k.2.2 = t := fun h => hut (hk.symm.trans h)
      simp [own, this]
  | @remove k c e hk h he =>
    simp only [stepP]
    split
    · exact own_erase_other (fun h => hut (hk.symm.trans h)) m
    · rfl

/-- **C90, isolation.**  Whatever the schedule, each thread is at every moment exactly where it would be had it made its operations alone. -/
theorem run_alone (w : World) (hw : ∀ t, Own t (w.threads t)) (sched : List Nat) :
    ∀ t, own t (w.run sched).memo = (alone (own t w.memo) (w.threads t) (sched.count t)).1 ∧
      (w.run sched).threads t = (alone (own t w.memo) (w.threads t) (sched.count t)).2 := by
  induction sched generalizing w with
  | nil => intro t; exact ⟨rfl, rfl⟩
  | cons u sched ih =>
    intro t
    have hown : ∀ t, Own t ((w.step u).threads t) := by
      intro t
      simp only [World.step]
      by_cases htu : t = u
      · subst htu; rw [if_pos rfl]; exact (stepP_own (hw t) _).2.2
      · rw [if_neg htu]; exact hw t
    have h := ih (w.step u) hown t
    show own t ((w.step u).run sched).memo = _ ∧ ((w.step u).run sched).threads t = _
    rw [h.1, h.2]
    by_cases htu : t = u
    · subst htu
      rw [List.count_cons_self]
      have hs := stepP_own (hw t) w.memo
      have e1 : own t (w.step t).memo = (stepP (own t w.memo) (w.threads t)).1 := hs.1
      have e2 : (w.step t).threads t = (stepP (own t w.memo) (w.threads t)).2 := by
        simp only [World.step, if_true]; exact hs.2.1
      rw [e1, e2]
      exact ⟨rfl, rfl⟩
    · rw [List.count_cons_of_ne (Ne.symm htu)]
      have e1 : own t (w.step u).memo = own t w.memo := stepP_other (Ne.symm htu) (hw u) w.memo
      have e2 : (w.step u).threads t = w.threads t := by simp only [World.step, if_neg htu]
      rw [e1, e2]
      exact ⟨rfl, rfl⟩

/-! ## The thread does not matter -/

/-- The keys of thread `t`, as keys of thread `u`. -/
def retag (u : Nat) (m : List MKey) : List MKey := m.map fun k => (k.1, k.2.1, u)

theorem eqV_retag (sc : S → S → R Bool) (h : Heap S) (t u n : Nat) : ∀ (x y : GVal S) (m : List MKey), (∀ k ∈ m, k.2.2 = t) →
    (eqV sc h u n x y (retag u m)).1 = (eqV sc h t n x y m).1 := by
  induction n with
  | zero => intro x y m _; rfl
  | succ n ih =>
    have hfl : ∀ (o : Obj S) (fs : List (String × GVal S)) (m : List MKey), (∀ k ∈ m, k.2.2 = t) →
        (fieldsLoop (eqV sc h u n) o fs (retag u m)).1 = (fieldsLoop (eqV sc h t n) o fs m).1 := by
      intro o fs m hm
      induction fs with
      | nil => rfl
      | cons kv fs ihf =>
        obtain ⟨k, v⟩ := kv
        have h1 := ih v (getF o k) m hm
        have h2 := C43_no_residue sc h t n v (getF o k) m
        have h3 := C43_no_residue sc h u n v (getF o k) (retag u m)
        simp only [fieldsLoop]
        generalize eqV sc h t n v (getF o k) m = r at h1 h2
        generalize eqV sc h u n v (getF o k) (retag u m) = r' at h1 h3
        obtain ⟨r1, r2⟩ := r
        obtain ⟨r1', r2'⟩ := r'
        simp only at h1 h2 h3
        subst h1 h2 h3
        cases r1' with
        | error e => rfl
        | ok b => cases b with
          | false => rfl
          | true => exact ihf
    have hll : ∀ (xs ys : List (GVal S)) (m : List MKey), (∀ k ∈ m, k.2.2 = t) →
        (listLoop (eqV sc h u n) xs ys (retag u m)).1 = (listLoop (eqV sc h t n) xs ys m).1 := by
      intro xs
      induction xs with
      | nil => intro ys m _; cases ys <;> rfl
      | cons x xs ihl =>
        intro ys m hm
        cases ys with
        | nil => rfl
        | cons y ys =>
          have h1 := ih x y m hm
          have h2 := C43_no_residue sc h t n x y m
          have h3 := C43_no_residue sc h u n x y (retag u m)
          simp only [listLoop]
          generalize eqV sc h t n x y m = r at h1 h2
          generalize eqV sc h u n x y (retag u m) = r' at h1 h3
          obtain ⟨r1, r2⟩ := r
          obtain ⟨r1', r2'⟩ := r'
          simp only at h1 h2 h3
          subst h1 h2 h3
          cases r1' with
          | error e => rfl
          | ok b => cases b with
            | false => rfl
            | true => exact ihl ys _ hm
    intro x y m hm
    cases x <;> cases y <;> try rfl
    case ref.ref a b =>
      show (eqObj (eqV sc h u n) h u a b (retag u m)).1 = (eqObj (eqV sc h t n) h t a b m).1
      unfold eqObj
      by_cases hab : a = b
      · rw [if_pos hab, if_pos hab]
      · rw [if_neg hab, if_neg hab]
        cases hoa : h[a]? with
        | none => rfl
        | some oa =>
          cases hob : h[b]? with
          | none => rfl
          | some ob =>
            simp only
            by_cases hcls : oa.cls ≠ ob.cls
            · rw [if_pos hcls, if_pos hcls]
            · rw [if_neg hcls, if_neg hcls]
              have hmem : (a, b, u) ∈ retag u m ↔ (a, b, t) ∈ m := by
                unfold retag
                rw [List.mem_map]
                constructor
                · rintro ⟨⟨k1, k2, k3⟩, hk, he⟩
                  have := hm _ hk
                  simp only at this he
                  cases he
                  subst this
                  exact hk
                · intro hk; exact ⟨_, hk, rfl⟩
              by_cases hk : (a, b, t) ∈ m
              · rw [if_pos hk, if_pos (hmem.2 hk)]
              · rw [if_neg hk, if_neg fun h => hk (hmem.1 h)]
                exact hfl ob oa.fields ((a, b, t) :: m) (by
                  intro k hk'
                  rcases List.mem_cons.1 hk' with rfl | hk'
                  · rfl
                  · exact hm k hk')
    case list.list xs ys => exact hll _ _ m hm

/-! ## The theorems -/

/-- The result of a comparison in a program with one thread (thread 0, nothing being compared yet). -/
def sequential (sc : S → S → R Bool) (h : Heap S) (n : Nat) (p : GVal S × GVal S) : R Bool := (eqV sc h 0 n p.1 p.2 []).1

theorem start_own (sc : S → S → R Bool) (h : Heap S) (n : Nat) (work : Nat → List (GVal S × GVal S)) :
    ∀ t, Own t ((World.start sc h n work).threads t) := fun t => workP_own sc h t n (work t) []

theorem start_finishes (sc : S → S → R Bool) (h : Heap S) (n : Nat) (work : Nat → List (GVal S × GVal S)) (t : Nat) :
    ∃ N, ∀ i, N ≤ i → alone [] (workP sc h t n (work t) []) i = ([], .done ((work t).map (sequential sc h n))) := by
  obtain ⟨N, hN⟩ := workP_computes sc h t n (work t) []
  refine ⟨N, ?_⟩
  intro i hi
  obtain ⟨j, rfl⟩ := Nat.exists_eq_add_of_le hi
  rw [alone_add, hN]
  simp only [List.nil_append]
  rw [alone_done]
  congr 2
  apply List.map_congr_left
  intro p _
  exact (eqV_retag sc h 0 t n p.1 p.2 [] (by simp))

/-- **C90, results.**  Any number of threads, each making any comparisons of the same objects, interleaved in any way: a thread that has finished has
got, for each of its comparisons, the result it gets in a program with one thread. -/
theorem C90_results (sc : S → S → R Bool) (h : Heap S) (n : Nat) (work : Nat → List (GVal S × GVal S)) (sched : List Nat) (t : Nat)
    (rs : List (R Bool)) (hd : ((World.start sc h n work).run sched).threads t = .done rs) :
    rs = (work t).map (sequential sc h n) := by
  obtain ⟨N, hN⟩ := start_finishes sc h n work t
  rw [(run_alone _ (start_own sc h n work) sched t).2] at hd
  have h1 : alone [] (workP sc h t n (work t) []) (sched.count t + N) = ([], .done ((work t).map (sequential sc h n))) :=
    hN _ (by omega)
  rw [alone_add] at h1
  have e : (World.start sc h n work).threads t = workP sc h t n (work t) [] := rfl
  have e' : own t (World.start sc h n work).memo = [] := rfl
  rw [e, e'] at hd
  rw [hd, alone_done] at h1
  simp only [Prod.mk.injEq, Prog.done.injEq] at h1
  exact h1.2

/-- **C90, progress.**  Each thread finishes after a number of its own operations that does not depend on the other threads or on the schedule: no
thread can delay, block or starve another's comparison by what it compares. -/
theorem C90_progress (sc : S → S → R Bool) (h : Heap S) (n : Nat) (work : Nat → List (GVal S × GVal S)) (t : Nat) :
    ∃ N, ∀ (others : Nat → List (GVal S × GVal S)), others t = work t → ∀ sched : List Nat, N ≤ sched.count t →
      ((World.start sc h n others).run sched).threads t = .done ((work t).map (sequential sc h n)) := by
  obtain ⟨N, hN⟩ := start_finishes sc h n work t
  refine ⟨N, ?_⟩
  intro others ho sched hs
  rw [(run_alone _ (start_own sc h n others) sched t).2]
  show (alone [] (workP sc h t n (others t) []) (sched.count t)).2 = _
  rw [ho, hN _ hs]

/-- **C90, no residue.**  At every moment the shared set holds entries of threads only that have not finished; when all have, it is empty. -/
theorem C90_no_residue (sc : S → S → R Bool) (h : Heap S) (n : Nat) (work : Nat → List (GVal S × GVal S)) (sched : List Nat) :
    (∀ t rs, ((World.start sc h n work).run sched).threads t = .done rs → ∀ k ∈ ((World.start sc h n work).run sched).memo, k.2.2 ≠ t) ∧
    ((∀ t, ∃ rs, ((World.start sc h n work).run sched).threads t = .done rs) → ((World.start sc h n work).run sched).memo = []) := by
  have main : ∀ t rs, ((World.start sc h n work).run sched).threads t = .done rs →
      ∀ k ∈ ((World.start sc h n work).run sched).memo, k.2.2 ≠ t := by
    intro t rs hd k hk hkt
    have hr := run_alone _ (start_own sc h n work) sched t
    have hm := hr.1
    rw [hr.2] at hd
    obtain ⟨N, hN⟩ := start_finishes sc h n work t
    have h1 : alone [] (workP sc h t n (work t) []) (sched.count t + N) = ([], .done ((work t).map (sequential sc h n))) :=
      hN _ (by omega)
    rw [alone_add] at h1
    have e : (World.start sc h n work).threads t = workP sc h t n (work t) [] := rfl
    have e' : own t (World.start sc h n work).memo = [] := rfl
    rw [e, e'] at hd hm
    rw [hd, alone_done] at h1
    simp only [Prod.mk.injEq] at h1
    rw [h1.1] at hm
    have := (mem_own hkt).2 hk
    rw [hm] at this
    cases this
  refine ⟨main, ?_⟩
  intro hall
  cases hm : ((World.start sc h n work).run sched).memo with
  | nil => rfl
  | cons k m =>
    obtain ⟨rs, hd⟩ := hall k.2.2
    exact absurd rfl (main k.2.2 rs hd k (by rw [hm]; simp))

/-! ## The hypotheses are met -/

/-- Two threads compare the two cyclic objects of `ring`, one in each direction, with a third that does nothing; the schedule alternates. -/
def twoWork : Nat → List (GVal Nat × GVal Nat)
  | 0 => [(.ref 0, .ref 2)]
  | 1 => [(.ref 0, .ref 2), (.ref 2, .ref 0)]
  | _ => []

/-- While both threads are in the middle of comparing the same pair, the set has an entry of each. -/
example : ((World.start natEq ring 100 twoWork).run [0, 1, 0, 1]).memo = [(0, 2, 1), (0, 2, 0)] := by decide +kernel

example : ∃ rs, ((World.start natEq ring 100 twoWork).run ((List.range 60).map (· % 3))).threads 1 = .done rs ∧ rs.length = 2 :=
  ⟨_, rfl, rfl⟩

/-- Two different objects. -/
def pair : Heap Nat := [⟨"A", [("x", .scalar 1)]⟩, ⟨"A", [("x", .scalar 2)]⟩]

/-- Why the thread is part of the key: two threads whose keys carry the same thread number do disturb each other - the second finds the pair in the set
while the first is comparing it, and takes the two different objects for equal. -/
example : (World.run ⟨[], fun _ => workP natEq pair 0 9 [(.ref 0, .ref 1)] []⟩ [0, 0, 1]).threads 1 = .done [.ok true] ∧
    sequential natEq pair 9 (.ref 0, .ref 1) = .ok false := ⟨rfl, rfl⟩

end Verif.EqGraph
