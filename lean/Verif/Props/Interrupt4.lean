import Verif.Props.Interrupt3

/-! # C107: after an interrupt -/
namespace Verif

open DictHeap

/-! ## The raw layer of an eager instance -/

/-- The raw layer is empty and is not one of the dicts that are written to. -/
structure Calm (r0 len0 : Nat) (s : Cells) : Prop where
  raw : s.attrs.raw = r0
  map0 : s.map0 = r0
  empty : s.heap.rd r0 = []
  lt : r0 < s.heap.length
  converted : s.attrs.converted ≠ r0 ∧ s.attrs.converted < s.heap.length
  stale : s.attrs.stale ≠ r0 ∧ s.attrs.stale < s.heap.length
  len : len0 ≤ s.heap.length

section
variable {r0 len0 : Nat} {s : Cells}

theorem Calm.wr (m : Calm r0 len0 s) {a : Nat} (ha : a ≠ r0 ∧ a < s.heap.length) (d : Data) : Calm r0 len0 { s with heap := s.heap.wr a d } := by
  refine ⟨m.raw, m.map0, ?_, ?_, ?_, ?_, ?_⟩ <;> simp only [length_wr]
  · rw [rd_wr _ _ _ _ ha.2, if_neg (Ne.symm ha.1)]; exact m.empty
  · exact m.lt
  · exact m.converted
  · exact m.stale
  · exact m.len

theorem Calm.new (m : Calm r0 len0 s) (d : Data) : Calm r0 len0 { s with heap := (s.heap.new d).1 } := by
  have h1 := m.lt
  have h2 := m.converted.2
  have h3 := m.stale.2
  have h4 := m.len
  refine ⟨m.raw, m.map0, ?_, ?_, ⟨m.converted.1, ?_⟩, ⟨m.stale.1, ?_⟩, ?_⟩ <;> simp only [length_new]
  · rw [rd_new _ _ _ m.lt]; exact m.empty
  · omega
  · omega
  · omega
  · omega

/-- `m` keeps the raw layer calm. -/
abbrev Calms (r0 len0 : Nat) (m : Steps (List Bool) α) (s : Cells) (Q : α → Cells → Prop) : Prop :=
  Post m s (fun a s' => Calm r0 len0 s' ∧ s.heap.length ≤ s'.heap.length ∧ Q a s') (fun _ s' => Calm r0 len0 s')

theorem calm_writeAt (m : Calm r0 len0 s) {a : Nat} (ha : a ≠ r0 ∧ a < s.heap.length) (l : List (Key × Val)) :
    Calms r0 len0 (Steps.writeAt a l) s fun _ _ => True :=
  Post.writeAt _ ⟨m.wr ha _, by simp only [length_wr]; exact Nat.le_refl _, trivial⟩ fun _ _ _ => m.wr ha _

theorem calm_alloc (m : Calm r0 len0 s) (d : Data) : Calms r0 len0 (Steps.alloc d) s fun a s' => a ≠ r0 ∧ a < s'.heap.length := by
  refine Post.alloc ⟨m.new d, ?_, ?_, ?_⟩ m
  · simp only [length_new]; omega
  · have := m.lt; omega
  · simp only [length_new]; omega

theorem calm_putConverted (m : Calm r0 len0 s) {a : Nat} (ha : a ≠ r0 ∧ a < s.heap.length) : Calms r0 len0 (Steps.putConverted a) s fun _ _ => True := by
  have m' : Calm r0 len0 { s with attrs := { s.attrs with converted := a } } := ⟨m.raw, m.map0, m.empty, m.lt, ha, m.stale, m.len⟩
  refine Post.seq (Post.store (Q := fun _ s' => Calm r0 len0 s' ∧ s'.heap = s.heap) ⟨m', rfl⟩ m) fun _ s' hs => ?_
  exact Post.store ⟨⟨hs.1.raw, hs.1.map0, hs.1.empty, hs.1.lt, hs.1.converted, hs.1.stale, hs.1.len⟩, Nat.le_of_eq (by rw [hs.2]), trivial⟩ hs.1

theorem calm_putValid (m : Calm r0 len0 s) (a : Nat) : Calms r0 len0 (Steps.putValid a) s fun _ _ => True := by
  have m' : Calm r0 len0 { s with attrs := { s.attrs with valid := a } } := ⟨m.raw, m.map0, m.empty, m.lt, m.converted, m.stale, m.len⟩
  refine Post.seq (Post.store (Q := fun _ s' => Calm r0 len0 s' ∧ s'.heap = s.heap) ⟨m', rfl⟩ m) fun _ s' hs => ?_
  exact Post.store ⟨⟨hs.1.raw, hs.1.map0, hs.1.empty, hs.1.lt, hs.1.converted, hs.1.stale, hs.1.len⟩, Nat.le_of_eq (by rw [hs.2]), trivial⟩ hs.1

variable {env : Env} {n : Nat} {c : ClassDef}

theorem calm_convert (m : Calm r0 len0 s) (raw : Data) (ctx : Ctx) : Calms r0 len0 (Steps.convert env n c raw ctx) s fun _ _ => True := by
  unfold Steps.convert
  refine Post.seq (Post.look (Q := fun _ s' => s' = s) rfl) ?_
  rintro _ s0 rfl
  refine Post.seq (Q' := fun r s' => Calm r0 len0 s' ∧ s0.heap.length ≤ s'.heap.length ∧ r ≠ r0 ∧ r < s'.heap.length) ?_ ?_
  · unfold Steps.given
    split
    · exact Post.look ⟨m, Nat.le_refl _, m.converted⟩
    · exact calm_alloc m raw
  rintro r s1 ⟨m1, hle1, hr⟩
  refine Post.seq (Q' := fun r' s' => r' = r ∧ s' = s1) ?_ ?_
  · unfold Steps.takePending
    refine Post.seq (Post.look (Q := fun d s' => d = [] ∧ s' = s1) ⟨by rw [m1.raw]; exact m1.empty, rfl⟩) ?_
    rintro d s' ⟨rfl, rfl⟩
    exact Post.ret ⟨rfl, rfl⟩
  rintro r' s1 ⟨rfl, rfl⟩
  refine Post.seq (Post.look (Q := fun _ s'' => s'' = s1) rfl) ?_
  rintro content s1 rfl
  refine Post.seq (Post.look (Q := fun _ s'' => s'' = s1) rfl) ?_
  rintro src s1 rfl
  split
  · refine Post.seq (Q' := fun _ s' => Calm r0 len0 s' ∧ s1.heap.length ≤ s'.heap.length) ?_ fun _ s' hs =>
      Post.ofR (fun _ _ => ⟨hs.1, Nat.le_trans hle1 hs.2, trivial⟩) (fun _ _ => hs.1) hs.1
    unfold Steps.mutate
    refine Post.seq (Post.look (Q := fun _ s'' => s'' = s1) rfl) ?_
    rintro src' s1 rfl
    refine Post.seq (Post.look (Q := fun a s'' => (a ≠ r0 ∧ a < s1.heap.length) ∧ s'' = s1) ⟨m1.converted, rfl⟩) ?_
    rintro a s1 ⟨ha, rfl⟩
    refine Post.seq (calm_writeAt m1 ha _) ?_
    rintro _ s2 ⟨m2, hle, _⟩
    refine Post.seq (Post.look (Q := fun _ s' => s' = s2) rfl) ?_
    rintro l s2 rfl
    exact (calm_writeAt m2 ⟨hr.1, Nat.lt_of_lt_of_le hr.2 hle⟩ l).mono (fun _ s' hs => ⟨hs.1, Nat.le_trans hle hs.2.1⟩) fun _ _ h => h
  · exact Post.ofR (fun _ _ => ⟨m1, hle1, trivial⟩) (fun _ _ => m1) m1

theorem calm_validate (m : Calm r0 len0 s) (ctx : Ctx) : Calms r0 len0 (Steps.validate env n c ctx) s fun _ _ => True := by
  have key : Post (Steps.validate env n c ctx) s (fun _ s' => Calm r0 len0 s' ∧ s.heap.length ≤ s'.heap.length) (fun _ s' => Calm r0 len0 s') := by
    unfold Steps.validate
    refine Post.seq (Post.look (Q := fun _ s' => s' = s) rfl) ?_
    rintro b s rfl
    split
    · exact Post.ret ⟨m, Nat.le_refl _⟩
    · unfold Steps.validateBody
      refine Post.tryFinally (Q' := fun _ s' => Calm r0 len0 s' ∧ s.heap.length ≤ s'.heap.length) (E' := fun _ s' => Calm r0 len0 s') ?_ ?_ ?_
      · refine Post.tryData (E' := fun _ s' => Calm r0 len0 s') ?_ ?_ fun _ _ _ h => h
        · refine Post.seq (calm_convert m _ _) ?_
          rintro d s1 ⟨m1, h1, _⟩
          refine Post.seq (calm_alloc m1 d) ?_
          rintro a s2 ⟨m2, h2, _⟩
          exact (calm_putValid m2 a).mono (fun _ _ x => ⟨x.1, Nat.le_trans h1 (Nat.le_trans h2 x.2.1)⟩) fun _ _ x => x
        · intro es p s1 m1
          refine Post.seq (Post.look (Q := fun _ s' => s' = s1) rfl) ?_
          rintro v s1 rfl
          refine Post.seq (calm_alloc m1 _) ?_
          rintro a s2 ⟨m2, h2, _⟩
          refine Post.seq (calm_putValid m2 a) ?_
          rintro _ s3 ⟨m3, _, _⟩
          exact Post.raise m3
      · rintro _ s1 ⟨m1, h1⟩
        refine Post.seq (calm_alloc m1 _) ?_
        rintro a s2 ⟨m2, h2, ha⟩
        exact (calm_putConverted m2 ha).mono (fun _ _ x => ⟨x.1, Nat.le_trans h1 (Nat.le_trans h2 x.2.1)⟩) fun _ _ x => x
      · intro _ s1 m1
        refine Post.seq (calm_alloc m1 _) ?_
        rintro a s2 ⟨m2, h2, ha⟩
        exact (calm_putConverted m2 ha).mono (fun _ _ x => x.1) fun _ _ x => x
  exact key.mono (fun _ _ x => ⟨x.1, x.2, trivial⟩) fun _ _ x => x

theorem calm_op (m : Calm r0 len0 s) (x : Op) : Post (Steps.op env n c x) s (fun _ s' => Calm r0 len0 s') (fun _ s' => Calm r0 len0 s') := by
  unfold Steps.op
  refine Post.seq (Q' := fun _ s' => Calm r0 len0 s') ?_ fun _ s' hs => Post.tick hs hs
  cases x with
  | set name v =>
    show Post (Steps.setAttr env n c name v) s _ _
    unfold Steps.setAttr
    have fin : ∀ l, Post (do let a ← Steps.get (·.attrs.converted); Steps.writeAt a l) s (fun _ s' => Calm r0 len0 s') (fun _ s' => Calm r0 len0 s') := by
      intro l
      refine Post.seq (Post.look (Q := fun a s'' => (a ≠ r0 ∧ a < s.heap.length) ∧ s'' = s) ⟨m.converted, rfl⟩) ?_
      rintro a s ⟨ha, rfl⟩
      exact (calm_writeAt m ha l).mono (fun _ _ x => x.1) fun _ _ x => x
    split
    · exact Post.raise m
    · split
      · split
        · exact Post.raise m
        · refine Post.seq (Post.ofR (Q := fun w s' => s' = s) (fun _ _ => rfl) (fun _ _ => m) m) ?_
          rintro w s rfl
          refine Post.seq (Post.ofR (Q := fun w s' => s' = s) (fun _ _ => rfl) (fun _ _ => m) m) ?_
          rintro asg s rfl
          exact fin asg
      · refine Post.seq (Post.ofR (Q := fun w s' => s' = s) (fun _ _ => rfl) (fun _ _ => m) m) ?_
        rintro w s rfl
        exact fin _
  | del name =>
    show Post (Steps.delAttr c name) s _ _
    have del : ∀ {s : Cells} (k : Key) {a : Nat}, Calm r0 len0 s → a < s.heap.length → (a ≠ r0 ∨ a = r0) →
        Post (Steps.delIn k a) s (fun _ s' => Calm r0 len0 s') (fun _ s' => Calm r0 len0 s') := by
      intro s k a m ha hor
      refine (holds_delIn (E := fun _ s' => Calm r0 len0 s') m).mono ?_ fun _ _ x => x
      rintro _ s' rfl
      unfold HInst.delIn
      split
      · rename_i hh
        rcases hor with h | rfl
        · exact m.wr ⟨h, ha⟩ _
        · rw [m.empty] at hh; cases hh
      · exact m
    unfold Steps.delAttr
    split
    · exact Post.raise m
    · split
      · exact Post.raise m
      · unfold Steps.delete
        refine Post.seq (Post.look (Q := fun a s'' => a = s.attrs.stale ∧ s'' = s) ⟨rfl, rfl⟩) ?_
        rintro a s ⟨rfl, rfl⟩
        refine Post.seq (del _ m m.stale.2 (.inl m.stale.1)) ?_
        intro b1 s1 m1
        refine Post.seq (Post.look (Q := fun a s'' => a = s1.attrs.converted ∧ s'' = s1) ⟨rfl, rfl⟩) ?_
        rintro a s1 ⟨rfl, rfl⟩
        refine Post.seq (del _ m1 m1.converted.2 (.inl m1.converted.1)) ?_
        intro b2 s2 m2
        refine Post.seq (Post.look (Q := fun a s'' => a = s2.attrs.raw ∧ s'' = s2) ⟨rfl, rfl⟩) ?_
        rintro a s2 ⟨rfl, rfl⟩
        refine Post.seq (del _ m2 (by rw [m2.raw]; exact m2.lt) (.inr m2.raw)) ?_
        intro b3 s3 m3
        split
        · exact Post.ret m3
        · exact Post.raise m3
  | validate ctx => exact (calm_validate m ctx).mono (fun _ _ x => x.1) fun _ _ x => x
  | importData raw ctx =>
    show Post (Steps.importData env n c raw ctx) s _ _
    unfold Steps.importData
    refine Post.seq (Post.look (Q := fun _ s' => s' = s) rfl) ?_
    rintro t s rfl
    refine Post.seq (calm_convert m _ _) ?_
    rintro d s1 ⟨m1, _, _⟩
    refine Post.seq (Post.look (Q := fun a s'' => (a ≠ r0 ∧ a < s1.heap.length) ∧ s'' = s1) ⟨m1.converted, rfl⟩) ?_
    rintro a s1 ⟨ha, rfl⟩
    refine Post.seq (calm_writeAt m1 ha d) ?_
    rintro _ s2 ⟨m2, _, _⟩
    split
    · exact (calm_validate m2 _).mono (fun _ _ x => x.1) fun _ _ x => x
    · exact Post.ret m2
  | serialize ectx =>
    refine Post.seq (Q' := fun _ s' => Calm r0 len0 s') ?_ fun _ s' hs => Post.ret hs
    show Post (Steps.serialize env n c ectx) s _ _
    unfold Steps.serialize
    refine Post.seq (Post.look (Q := fun a s'' => (a ≠ r0 ∧ a < s.heap.length) ∧ s'' = s) ⟨m.converted, rfl⟩) ?_
    rintro saved s ⟨ha, rfl⟩
    refine Post.seq (Q' := fun _ s' => Calm r0 len0 s' ∧ s.heap.length ≤ s'.heap.length) ?_ ?_
    · have m' : Calm r0 s.heap.length s := ⟨m.raw, m.map0, m.empty, m.lt, m.converted, m.stale, Nat.le_refl _⟩
      have hv := calm_validate (env := env) (n := n) (c := c) m' { defaults := true, validate := true }
      have hv0 := calm_validate (env := env) (n := n) (c := c) m { defaults := true, validate := true }
      have both : Post (Steps.validate env n c { defaults := true, validate := true }) s (fun _ s' => Calm r0 len0 s' ∧ s.heap.length ≤ s'.heap.length)
          (fun _ s' => Calm r0 len0 s' ∧ s.heap.length ≤ s'.heap.length) := fun o =>
        ⟨fun a s' o' e => ⟨((hv0 o).1 _ _ _ e).1, ((hv o).1 _ _ _ e).1.len⟩, fun f s' o' e => ⟨(hv0 o).2 _ _ _ e, ((hv o).2 _ _ _ e).len⟩⟩
      exact Post.tryData both (fun _ _ s' h => Post.ret h) fun _ _ _ h => h.1
    rintro _ s1 ⟨m1, h1⟩
    refine Post.seq (Post.look (Q := fun _ s' => s' = s1) rfl) ?_
    rintro content s1 rfl
    refine Post.seq (Post.ofR (Q := fun w s' => s' = s1) (fun _ _ => rfl) (fun _ _ => m1) m1) ?_
    rintro d s1 rfl
    refine Post.seq (calm_putConverted m1 ⟨ha.1, Nat.lt_of_lt_of_le ha.2 h1⟩) ?_
    rintro _ s2 ⟨m2, _, _⟩
    exact Post.ret m2

theorem calm_history (l : List (Op × List Bool)) : ∀ {s : Cells}, Calm r0 len0 s → Calm r0 len0 (s.history env n c l) := by
  induction l with
  | nil => intro s h; exact h
  | cons x l ih =>
    intro s h
    refine ih ?_
    unfold Cells.after
    have := calm_op (env := env) (n := n) (c := c) h x.1 x.2
    generalize hr : Steps.op env n c x.1 s x.2 = r at *
    obtain ⟨a, s', o'⟩ := r
    cases a with
    | ok a => exact this.1 _ _ _ rfl
    | error f => exact this.2 _ _ _ rfl

/-- The attributes and the chain map agree. -/
structure Whole (s : Cells) : Prop where
  map1 : s.map1 = s.attrs.converted
  map2 : s.map2 = s.attrs.valid
  none : s.heap.rd s.attrs.converted = []

theorem agree_validate (ctx : Ctx) (hp : ctx.partial_ = false) (s : Cells) :
    Post (Steps.validate env n c ctx) s (fun _ s' => Whole s') (fun f s' => ∀ es p, f = .exc (.data es p) → Whole s') := by
  have last : ∀ {E : Fault → Cells → Prop} {s : Cells}, (∀ s', E .interrupt s') → s.map2 = s.attrs.valid →
      Post (do let a ← Steps.alloc []; Steps.putConverted a) s (fun _ s' => Whole s') E := by
    intro E s hE h2
    refine Post.seq (Post.alloc (Q := fun a s' => s'.map2 = s'.attrs.valid ∧ s'.heap.rd a = []) ⟨h2, rd_new_self s.heap []⟩ (hE _)) ?_
    rintro a s1 ⟨h2, h3⟩
    refine Post.seq (Post.store (Q := fun _ s' => s'.map2 = s'.attrs.valid ∧ s'.heap.rd s'.attrs.converted = []) ⟨h2, h3⟩ (hE _)) ?_
    rintro _ s2 ⟨h2, h3⟩
    exact Post.store ⟨rfl, h2, h3⟩ (hE _)
  have put : ∀ {E : Fault → Cells → Prop} (a : Nat) (s : Cells), (∀ s', E .interrupt s') → Post (Steps.putValid a) s (fun _ s' => s'.map2 = s'.attrs.valid) E := by
    intro E a s hE
    refine Post.seq (Post.store (Q := fun _ _ => True) trivial (hE _)) fun _ s1 _ => Post.store rfl (hE _)
  unfold Steps.validate
  refine Post.seq (Post.look (Q := fun b s' => b = ((s.heap.rd s.attrs.converted).isEmpty && ctx.partial_) ∧ s' = s) ⟨rfl, rfl⟩) ?_
  rintro b s ⟨rfl, rfl⟩
  rw [hp, Bool.and_false]
  simp only [Bool.false_eq_true, if_false]
  unfold Steps.validateBody
  refine Post.tryFinally (Q' := fun _ s' => s'.map2 = s'.attrs.valid) (E' := fun f s' => ∀ es p, f = .exc (.data es p) → s'.map2 = s'.attrs.valid) ?_
    (fun _ s' h => last (fun _ _ _ => nofun) h) ?_
  · refine Post.tryData (E' := fun _ _ => True) ?_ ?_ fun f s' hn _ es p e => absurd e (hn es p)
    · refine Post.seq (Q' := fun _ _ => True) ?_ ?_
      · exact fun o => ⟨fun _ _ _ _ => trivial, fun _ _ _ _ => trivial⟩
      · intro d s1 _
        exact Post.seq (Q' := fun _ _ => True) (Post.alloc trivial trivial) fun a s2 _ => put a s2 fun _ => trivial
    · intro es p s1 _
      refine Post.seq (Post.look (Q := fun _ _ => True) trivial) fun v s2 _ => ?_
      refine Post.seq (Q' := fun _ _ => True) (Post.alloc trivial nofun) fun a s3 _ => ?_
      exact Post.seq (put a s3 fun _ => nofun) fun _ s4 h => Post.raise fun _ _ _ => h
  · intro f s' h
    by_cases hf : ∃ es p, f = .exc (.data es p)
    · obtain ⟨es, p, rfl⟩ := hf
      exact (last (E := fun f s' => ∀ es p, f = .exc (.data es p) → Whole s') (fun _ => nofun) (h es p rfl)).mono (fun _ _ x _ _ _ => x) fun _ _ x => x
    · refine (Post.mono (Q := fun _ _ => True) (E := fun f _ => f = .interrupt) (Honest.last_interrupt s') (fun _ _ _ es p e => absurd ⟨es, p, e⟩ hf) ?_)
      rintro f s'' rfl es p e
      cases e

end
end Verif
