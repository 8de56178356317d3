import Verif.Props.DataObject
import Verif.Props.Equality

/-!
# C112: equality of `DataObject`s

`==` tells exactly whether two objects can be told apart by reading attributes, and attributes of attributes.
-/
namespace Verif.Lib.DataObject

/-! ## Specification -/

/-- What `x.k1.k2…` reads; `none` is an `AttributeError`. -/
def follow (h : Objs) : DVal → List String → Option DVal
  | x, [] => some x
  | .plain _, _ :: _ => none
  | .object a, k :: ks =>
    match (rd h a).get? k with
    | none => none
    | some v => follow h v ks

/-- The two readings tell nothing apart: no attribute in both, equal values that are no `DataObject`s, or `DataObject`s in both. -/
inductive Alike : Option DVal → Option DVal → Prop
  | absent : Alike none none
  | plain {v w : Val} (e : v.pyEq w = true) : Alike (some (.plain v)) (some (.plain w))
  | objects (a b : Nat) : Alike (some (.object a)) (some (.object b))

/-- The same can be read from both. -/
def Indistinct (h : Objs) (a b : Nat) : Prop := ∀ path, Alike (follow h (.object a) path) (follow h (.object b) path)

/-- The values of attributes, apart from `DataObject`s, satisfy `P`. -/
def Values (P : Val → Prop) (h : Objs) : Prop := ∀ a k v, (k, DVal.plain v) ∈ rd h a → P v

/-! ## Proofs -/

theorem mem_of_get? {d : Attrs} {k : String} {v : DVal} (e : Dict.get? d k = some v) : (k, v) ∈ d := by
  induction d with
  | nil => cases e
  | cons kv d ih =>
    obtain ⟨k', w⟩ := kv
    rw [Dict.get?_cons] at e
    by_cases hk : k' = k
    · rw [if_pos hk] at e; injection e with e; subst hk; subst e; exact List.mem_cons_self
    · rw [if_neg hk] at e; exact List.mem_cons_of_mem _ (ih e)

theorem eachEq_true {f : DVal → DVal → Option Bool} {l : List (String × DVal)} {d : Attrs} :
    eachEq f l d = some true ↔ ∀ kv ∈ l, ∃ w, Dict.get? d kv.1 = some w ∧ f kv.2 w = some true := by
  induction l with
  | nil => simp [eachEq]
  | cons kv l ih =>
    obtain ⟨k, v⟩ := kv
    unfold eachEq
    cases hg : Dict.get? d k with
    | none =>
      constructor
      · nofun
      · intro H; obtain ⟨w, hw, _⟩ := H (k, v) List.mem_cons_self; rw [hg] at hw; cases hw
    | some w =>
      simp only []
      cases hf : f v w with
      | none =>
        constructor
        · nofun
        · intro H; obtain ⟨w', hw, hv⟩ := H (k, v) List.mem_cons_self; rw [hg] at hw; injection hw with hw; subst hw; rw [hf] at hv; cases hv
      | some r =>
        cases r with
        | false =>
          constructor
          · nofun
          · intro H; obtain ⟨w', hw, hv⟩ := H (k, v) List.mem_cons_self; rw [hg] at hw; injection hw with hw; subst hw; rw [hf] at hv; cases hv
        | true =>
          simp only [ih, List.mem_cons, forall_eq_or_imp]
          exact ⟨fun H => ⟨⟨w, hg, hf⟩, H⟩, fun H => H.2⟩

theorem eachEq_false {f : DVal → DVal → Option Bool} {l : List (String × DVal)} {d : Attrs} (e : eachEq f l d = some false) :
    ∃ kv ∈ l, Dict.get? d kv.1 = none ∨ ∃ w, Dict.get? d kv.1 = some w ∧ f kv.2 w = some false := by
  induction l with
  | nil => cases e
  | cons kv l ih =>
    obtain ⟨k, v⟩ := kv
    unfold eachEq at e
    cases hg : Dict.get? d k with
    | none => exact ⟨_, List.mem_cons_self, .inl hg⟩
    | some w =>
      rw [hg] at e
      simp only [] at e
      cases hf : f v w with
      | none => rw [hf] at e; cases e
      | some r =>
        rw [hf] at e
        cases r with
        | false => exact ⟨_, List.mem_cons_self, .inr ⟨w, hg, hf⟩⟩
        | true => obtain ⟨x, hx, hp⟩ := ih e; exact ⟨x, List.mem_cons_of_mem _ hx, hp⟩

theorem eachEq_some {f : DVal → DVal → Option Bool} {l : List (String × DVal)} {d : Attrs} (hf : ∀ kv ∈ l, ∀ w, f kv.2 w ≠ none) : eachEq f l d ≠ none := by
  induction l with
  | nil => nofun
  | cons kv l ih =>
    obtain ⟨k, v⟩ := kv
    unfold eachEq
    cases hg : Dict.get? d k with
    | none => nofun
    | some w =>
      simp only []
      have := hf (k, v) List.mem_cons_self w
      cases hx : f v w with
      | none => exact absurd hx this
      | some r =>
        cases r with
        | false => nofun
        | true => exact ih fun x hx => hf x (List.mem_cons_of_mem _ hx)

/-- The other direction of an inclusion of keys of the same number. -/
theorem keysBack {d e : Attrs} (hd : Dict.Nodup d) (hl : d.length = e.length) (H : ∀ kv ∈ d, kv.1 ∈ Dict.keys e) : ∀ k ∈ Dict.keys e, k ∈ Dict.keys d := by
  have hsub : Dict.keys d ⊆ Dict.keys e := by
    intro k hk
    obtain ⟨kv, hkv, rfl⟩ := List.mem_map.1 hk
    exact H kv hkv
  have hp := (List.subperm_of_subset hd hsub).perm_of_length_le (by simp [Dict.keys, hl])
  exact fun k hk => hp.symm.subset hk

/-- Objects with different numbers of attributes: one has an attribute the other has not. -/
theorem lengths_differ {d e : Attrs} (hd : Dict.Nodup d) (he : Dict.Nodup e) (hl : d.length ≠ e.length) :
    ∃ k, (Dict.get? d k = none ∧ Dict.get? e k ≠ none) ∨ (Dict.get? d k ≠ none ∧ Dict.get? e k = none) := by
  by_contra H
  apply hl
  have same : ∀ k, k ∈ Dict.keys d ↔ k ∈ Dict.keys e := by
    intro k
    rw [← Dict.get?_isSome, ← Dict.get?_isSome]
    cases h1 : Dict.get? d k with
    | none =>
      cases h2 : Dict.get? e k with
      | none => rfl
      | some w => exact absurd ⟨k, .inl ⟨h1, by rw [h2]; nofun⟩⟩ H
    | some v =>
      cases h2 : Dict.get? e k with
      | none => exact absurd ⟨k, .inr ⟨by rw [h1]; nofun, h2⟩⟩ H
      | some w => rfl
  have hp := (List.perm_ext_iff_of_nodup hd he).2 same
  have := hp.length_eq
  simpa [Dict.keys] using this

theorem follow_cons (h : Objs) (a : Nat) (k : String) (ks : List String) :
    follow h (.object a) (k :: ks) = (Dict.get? (rd h a) k).bind fun v => follow h v ks := by
  show (match (rd h a).get? k with
    | none => none
    | some v => follow h v ks) = _
  cases Dict.get? (rd h a) k <;> rfl

/-- Two values. -/
def IndistinctV (h : Objs) (x y : DVal) : Prop := ∀ path, Alike (follow h x path) (follow h y path)

theorem plain_indistinct (h : Objs) {v w : Val} (e : v.pyEq w = true) : IndistinctV h (.plain v) (.plain w) := by
  intro path
  cases path with
  | nil => exact .plain e
  | cons k ks => exact .absent

theorem indistinct_self {h : Objs} (hv : Values (fun v => v.pyEq v = true) h) (a : Nat) : Indistinct h a a := by
  suffices ∀ (path : List String) (x : DVal), (∀ v, x = .plain v → v.pyEq v = true) → Alike (follow h x path) (follow h x path) from
    fun path => this path (.object a) nofun
  intro path
  induction path with
  | nil =>
    intro x hx
    cases x with
    | plain v => exact .plain (hx v rfl)
    | object b => exact .objects b b
  | cons k ks ih =>
    intro x hx
    cases x with
    | plain v => exact .absent
    | object b =>
      rw [follow_cons]
      cases hg : Dict.get? (rd h b) k with
      | none => exact .absent
      | some v => exact ih v fun w e => by subst e; exact hv b k w (mem_of_get? hg)

theorem eq_true {h : Objs} (hw : Whole h) (hv : Values (fun v => v.pyEq v = true) h) (n a b : Nat) (e : eqObj h n a b = some true) : Indistinct h a b := by
  induction n generalizing a b with
  | zero => cases e
  | succ n ih =>
    unfold eqObj at e
    by_cases hl : (rd h a).length = (rd h b).length
    · rw [if_pos hl, eachEq_true] at e
      intro path
      cases path with
      | nil => exact .objects a b
      | cons k ks =>
        rw [follow_cons, follow_cons]
        cases hg : Dict.get? (rd h a) k with
        | none =>
          have : Dict.get? (rd h b) k = none := by
            rw [← Option.not_isSome_iff_eq_none, Dict.get?_isSome]
            intro hk
            have := keysBack (hw a) hl (fun kv hkv => by obtain ⟨w, hw', _⟩ := e kv hkv; rw [← Dict.get?_isSome, hw']; rfl) k hk
            rw [← Dict.get?_isSome, hg] at this
            cases this
          rw [this]
          exact .absent
        | some v =>
          obtain ⟨w, h1, h2⟩ := e (k, v) (mem_of_get? hg)
          rw [h1]
          show Alike (follow h v ks) (follow h w ks)
          cases v with
          | plain v =>
            cases w with
            | plain w => injection h2 with h2; exact plain_indistinct h h2 ks
            | object b' => cases h2
          | object a' =>
            cases w with
            | plain w => cases h2
            | object b' =>
              unfold cmp at h2
              simp only [] at h2
              by_cases hab : a' = b'
              · subst hab; exact indistinct_self hv a' ks
              · rw [if_neg hab] at h2; exact ih a' b' h2 ks
    · rw [if_neg hl] at e; cases e

theorem eq_false {h : Objs} (hw : Whole h) (n a b : Nat) (e : eqObj h n a b = some false) : ∃ path, ¬Alike (follow h (.object a) path) (follow h (.object b) path) := by
  induction n generalizing a b with
  | zero => cases e
  | succ n ih =>
    unfold eqObj at e
    by_cases hl : (rd h a).length = (rd h b).length
    · rw [if_pos hl] at e
      obtain ⟨⟨k, v⟩, hm, hk⟩ := eachEq_false e
      have hg : Dict.get? (rd h a) k = some v := Dict.get?_of_mem (hw a) hm
      rcases hk with hk | ⟨w, hk, hf⟩
      · exact ⟨[k], by rw [follow_cons, follow_cons, hg, hk]; intro H; cases v <;> cases H⟩
      · cases v with
        | plain v =>
          cases w with
          | plain w =>
            refine ⟨[k], ?_⟩
            rw [follow_cons, follow_cons, hg, hk]
            intro H
            cases H with
            | plain e' => injection hf with hf; rw [e'] at hf; cases hf
          | object b' => exact ⟨[k], by rw [follow_cons, follow_cons, hg, hk]; intro H; cases H⟩
        | object a' =>
          cases w with
          | plain w => exact ⟨[k], by rw [follow_cons, follow_cons, hg, hk]; intro H; cases H⟩
          | object b' =>
            unfold cmp at hf
            simp only [] at hf
            by_cases hab : a' = b'
            · rw [if_pos hab] at hf; cases hf
            · rw [if_neg hab] at hf
              obtain ⟨path, hp⟩ := ih a' b' hf
              exact ⟨k :: path, by rw [follow_cons, follow_cons, hg, hk]; exact hp⟩
    · obtain ⟨k, hk⟩ := lengths_differ (hw a) (hw b) hl
      refine ⟨[k], ?_⟩
      rw [follow_cons, follow_cons]
      rcases hk with ⟨h1, h2⟩ | ⟨h1, h2⟩
      · rw [h1]
        cases hg : Dict.get? (rd h b) k with
        | none => exact absurd hg h2
        | some w => intro H; cases H
      · rw [h2]
        cases hg : Dict.get? (rd h a) k with
        | none => exact absurd hg h1
        | some w => intro H; cases H

/-- **C112** (what `==` means).  If `a == b` returns, it returns `True` exactly if reading attributes, and attributes of attributes, to any depth, tells nothing apart - in whatever order the attributes were set, and
however the objects are shared or part of each other. -/
theorem C112_indistinct (past : List DOp) (hv : Values (fun v => v.pyEq v = true) (runAll [] past)) (n a b : Nat) (r : Bool) (e : eqObj (runAll [] past) n a b = some r) :
    r = true ↔ Indistinct (runAll [] past) a b := by
  cases r with
  | true => exact ⟨fun _ => eq_true (whole_runAll past) hv n a b e, fun _ => rfl⟩
  | false =>
    refine ⟨nofun, fun H => ?_⟩
    obtain ⟨path, hp⟩ := eq_false (whole_runAll past) n a b e
    exact absurd (H path) hp

/-- **C112** (it returns).  If no object is part of itself, then `a == b` returns. -/
theorem C112_returns (h : Objs) (rank : Nat → Nat) (hr : ∀ a b, Part h b a → rank b < rank a) (a b n : Nat) (hn : rank a < n) : ∃ r, eqObj h n a b = some r := by
  rw [← Option.ne_none_iff_exists']
  induction n generalizing a b with
  | zero => omega
  | succ n ih =>
    unfold eqObj
    split
    · apply eachEq_some
      rintro ⟨k, v⟩ hk w
      cases v with
      | plain v => cases w <;> nofun
      | object a' =>
        cases w with
        | plain w => nofun
        | object b' =>
          unfold cmp
          simp only []
          split
          · nofun
          · exact ih a' b' (by have := hr a a' ⟨k, hk⟩; omega)
    · nofun

theorem cmp_self {f : Nat → Nat → Option Bool} {x : DVal} (hx : ∀ v, x = .plain v → v.pyEq v = true) : cmp f x x = some true := by
  cases x with
  | plain v => unfold cmp; simp only []; rw [hx v rfl]
  | object a => unfold cmp; simp

theorem eachEq_same {h : Objs} (hw : Whole h) (hv : Values (fun v => v.pyEq v = true) h) (f : Nat → Nat → Option Bool) (a : Nat) {d : Attrs} (hd : ∀ k, Dict.get? d k = Dict.get? (rd h a) k) :
    eachEq (cmp f) (rd h a) d = some true := by
  rw [eachEq_true]
  rintro ⟨k, v⟩ hk
  refine ⟨v, by rw [hd]; exact Dict.get?_of_mem (hw a) hk, cmp_self fun w e => ?_⟩
  simp only [] at e
  subst e
  exact hv a k w hk

/-- **C112** (itself).  An object is equal to itself, even if it is part of itself. -/
theorem C112_itself (past : List DOp) (hv : Values (fun v => v.pyEq v = true) (runAll [] past)) (n a : Nat) : eqObj (runAll [] past) (n + 1) a a = some true := by
  unfold eqObj
  rw [if_pos rfl]
  exact eachEq_same (whole_runAll past) hv _ a fun k => rfl

theorem length_of_same {d e : Attrs} (hd : Dict.Nodup d) (he : Dict.Nodup e) (H : ∀ k, Dict.get? d k = Dict.get? e k) : d.length = e.length := by
  by_contra hl
  obtain ⟨k, hk⟩ := lengths_differ hd he hl
  rw [H k] at hk
  rcases hk with ⟨h1, h2⟩ | ⟨h1, h2⟩
  · exact h2 h1
  · exact h1 h2

/-- **C112** (copies).  An object is equal to its copy, and the copy to it, even if it is part of itself. -/
theorem C112_copy (past : List DOp) (hv : Values (fun v => v.pyEq v = true) (runAll [] past)) (n a : Nat) (ha : a < (runAll [] past).length) :
    let h := runAll [] past
    let b := h.length
    let h' := ((DOp.copy a).run h).2
    ((DOp.copy a).run h).1 = .value (.object b) ∧ eqObj h' (n + 1) a b = some true ∧ eqObj h' (n + 1) b a = some true := by
  intro h b h'
  have hw : Whole h := whole_runAll past
  have hw' : Whole h' := whole_run hw _
  have ha' : a < h.length := ha
  have r1 : rd h' a = rd h a := by
    show rd (h ++ [_]) a = _
    rw [rd_append, if_neg (by omega)]
  have r2 : ∀ k, Dict.get? (rd h' b) k = Dict.get? (rd h' a) k := fun k => by
    rw [r1]
    show Dict.get? (rd (h ++ [_]) h.length) k = _
    rw [rd_append, if_pos rfl, get?_upd _ _ (hw a)]
    unfold orElse
    cases Dict.get? (rd h a) k <;> rfl
  have hv' : Values (fun v => v.pyEq v = true) h' := by
    intro c k v hk
    by_cases hc : c = b
    · subst hc
      have := Dict.get?_of_mem (hw' b) hk
      rw [r2, r1] at this
      exact hv a k v (mem_of_get? this)
    · have : rd h' c = rd h c := by
        show rd (h ++ [_]) c = _
        rw [rd_append, if_neg hc]
      rw [this] at hk
      exact hv c k v hk
  have hlen := length_of_same (hw' b) (hw' a) r2
  refine ⟨rfl, ?_, ?_⟩
  · unfold eqObj
    rw [if_pos hlen.symm]
    exact eachEq_same hw' hv' _ a r2
  · unfold eqObj
    rw [if_pos hlen]
    exact eachEq_same hw' hv' _ b fun k => (r2 k).symm

theorem follow_full {K : String → List Key} {h : Objs} (hv : Values (Full K) h) (a : Nat) (path : List String) {v : Val} (e : follow h (.object a) path = some (.plain v)) : Full K v := by
  suffices ∀ (path : List String) (x : DVal), (∀ w, x = .plain w → Full K w) → follow h x path = some (.plain v) → Full K v from this path (.object a) (fun _ e' => DVal.noConfusion e') e
  intro path
  induction path with
  | nil => intro x hx e; injection e with e; exact hx v e
  | cons k ks ih =>
    intro x hx e
    cases x with
    | plain w => cases e
    | object b =>
      rw [follow_cons] at e
      cases hg : Dict.get? (rd h b) k with
      | none => rw [hg] at e; cases e
      | some y =>
        rw [hg] at e
        exact ih y (fun w ew => by subst ew; exact hv b k w (mem_of_get? hg)) e

/-- **C112** (symmetry).  `a == b` and `b == a` agree if both return. -/
theorem C112_symmetric (K : String → List Key) (past : List DOp) (hn : Values NoNaN (runAll [] past)) (hf : Values (Full K) (runAll [] past)) (n m a b : Nat) (r r' : Bool)
    (e : eqObj (runAll [] past) n a b = some r) (e' : eqObj (runAll [] past) m b a = some r') : r = r' := by
  have hv : Values (fun v => v.pyEq v = true) (runAll [] past) := fun a k v hk => (C42_value_equality K).1 v (hf a k v hk) (hn a k v hk)
  have sym : ∀ a b, Indistinct (runAll [] past) a b → Indistinct (runAll [] past) b a := by
    intro a b H path
    have := H path
    generalize hx : follow (runAll [] past) (.object a) path = x at this
    generalize hy : follow (runAll [] past) (.object b) path = y at this
    cases this with
    | absent => exact .absent
    | plain e => exact .plain ((C42_value_equality K).2.1 _ _ (follow_full hf a path hx) (follow_full hf b path hy) e)
    | objects a b => exact .objects b a
  have h1 := C112_indistinct past hv n a b r e
  have h2 := C112_indistinct past hv m b a r' e'
  rw [Bool.eq_iff_iff, h1, h2]
  exact ⟨sym a b, sym b a⟩

/-- **C112** (transitivity).  If `a == b` and `b == c`, and `a == c` returns, then it returns `True`. -/
theorem C112_transitive (K : String → List Key) (past : List DOp) (hn : Values NoNaN (runAll [] past)) (hf : Values (Full K) (runAll [] past)) (n m l a b c : Nat) (r : Bool)
    (e : eqObj (runAll [] past) n a b = some true) (e' : eqObj (runAll [] past) m b c = some true) (e'' : eqObj (runAll [] past) l a c = some r) : r = true := by
  have hv : Values (fun v => v.pyEq v = true) (runAll [] past) := fun a k v hk => (C42_value_equality K).1 v (hf a k v hk) (hn a k v hk)
  rw [C112_indistinct past hv l a c r e'']
  have h1 := (C112_indistinct past hv n a b true e).1 rfl
  have h2 := (C112_indistinct past hv m b c true e').1 rfl
  intro path
  have p1 := h1 path
  have p2 := h2 path
  generalize hx : follow (runAll [] past) (.object a) path = x at p1
  generalize hy : follow (runAll [] past) (.object b) path = y at p1 p2
  generalize hz : follow (runAll [] past) (.object c) path = z at p2
  cases p1 with
  | absent => cases p2; exact .absent
  | plain e1 =>
    cases p2 with
    | plain e2 => exact .plain ((C42_value_equality K).2.2 _ _ _ (follow_full hf a path hx) (follow_full hf b path hy) (follow_full hf c path hz) e1 e2)
  | objects a b => cases p2 with | objects _ c => exact .objects a c

/-! ## The hypotheses are met -/

namespace SampleEq

/-- Two objects with the same attributes, set in another order, and one with another value below. -/
def past : List DOp := [
  .new .none true [("x", .plain (.int 1))], .new (.dict [("d", .object 0), ("y", .plain (.int 2))]) false [],
  .new .none true [("x", .plain (.bool true))], .new (.dict [("y", .plain (.int 2)), ("d", .object 2)]) false [],
  .new .none true [("x", .plain (.int 3))], .new (.dict [("d", .object 4), ("y", .plain (.int 2))]) false []]
/-- The objects. -/
def heap : Objs := [[("x", .plain (.int 1))], [("d", .object 0), ("y", .plain (.int 2))], [("x", .plain (.bool true))], [("y", .plain (.int 2)), ("d", .object 2)],
  [("x", .plain (.int 3))], [("d", .object 4), ("y", .plain (.int 2))]]
theorem heap_eq : runAll [] past = heap := rfl
theorem values (P : Val → Prop) (h : ∀ i, P (.int i)) (hb : ∀ b, P (.bool b)) : Values P (runAll [] past) := by
  rw [heap_eq]
  intro a k v hk
  have : ∀ d ∈ heap, ∀ kv ∈ d, kv.2 = .plain v → P v := by
    simp only [heap, List.mem_cons, List.not_mem_nil, or_false, forall_eq_or_imp, forall_eq, DVal.plain.injEq, reduceCtorEq, false_implies, true_and, and_true]
    refine ⟨?_, ?_, ?_, ?_, ?_, ?_⟩ <;> intro e <;> subst e <;> first | exact h _ | exact hb _
  unfold rd at hk
  cases hg : heap[a]? with
  | none => rw [hg] at hk; cases hk
  | some d => rw [hg] at hk; exact this d (List.mem_of_getElem? hg) _ hk rfl
theorem usual : Values (fun v => v.pyEq v = true) (runAll [] past) := values _ (fun _ => (pyEq_num rfl _).2 rfl) (fun _ => (pyEq_num rfl _).2 rfl)
theorem one : eqObj (runAll [] past) 2 1 3 = some true := by rw [heap_eq]; decide +kernel
theorem two : eqObj (runAll [] past) 2 1 5 = some false := by rw [heap_eq]; decide +kernel
example : Indistinct (runAll [] past) 1 3 := (C112_indistinct past usual 2 1 3 true one).1 rfl
example : ¬Indistinct (runAll [] past) 1 5 := fun H => Bool.noConfusion ((C112_indistinct past usual 2 1 5 false two).2 H)
example := C112_itself past usual 0 3
example := C112_copy past usual 0 3 (by decide)
example := C112_symmetric (fun _ => []) past (values _ (fun _ => trivial) (fun _ => trivial)) (values _ (fun _ => trivial) (fun _ => trivial)) 2 2 1 3 true true one (by rw [heap_eq]; decide +kernel)
example := C112_transitive (fun _ => []) past (values _ (fun _ => trivial) (fun _ => trivial)) (values _ (fun _ => trivial) (fun _ => trivial)) 2 2 2 1 3 1 true one (by rw [heap_eq]; decide +kernel) (by rw [heap_eq]; decide +kernel)
theorem ranked : ∀ a b, Part Sample.heap b a → b < a := Sample.heap_ranked
example := C112_returns Sample.heap id ranked 1 0 2 (by decide)

/-- Two objects, each with itself as an attribute; and two more that differ in `x` as well. -/
def rings : Objs := [[("me", .object 0)], [("me", .object 1)], [("x", .plain (.int 1)), ("me", .object 2)], [("me", .object 3), ("x", .plain (.int 2))]]

/-- **C112** (circles).  `d.me = d; e.me = e; d == e` ends with a `RecursionError`, however deep the interpreter recurses. -/
theorem C112_counterexample_circle (n : Nat) : eqObj rings n 0 1 = none := by
  induction n with
  | zero => rfl
  | succ n ih =>
    show (match eqObj rings n 0 1 with
      | some true => some true
      | r => r) = none
    rw [ih]

/-- **C112** (order).  In a circle, `d == e` may return `False` and `e == d` end with a `RecursionError`. -/
theorem C112_counterexample_order : (∀ n, eqObj rings (n + 1) 2 3 = some false) ∧ ∀ n, eqObj rings n 3 2 = none := by
  refine ⟨fun n => ?_, fun n => ?_⟩
  · have : Val.pyEq (.int 1) (.int 2) = false := by decide +kernel
    show (match some (Val.pyEq (.int 1) (.int 2)) with
      | some true => eachEq (cmp (eqObj rings n)) [("me", .object 2)] [("me", .object 3), ("x", .plain (.int 2))]
      | r => r) = some false
    rw [this]
  · induction n with
    | zero => rfl
    | succ n ih =>
      show (match eqObj rings n 3 2 with
        | some true => _
        | r => r) = none
      rw [ih]

end SampleEq
end Verif.Lib.DataObject
