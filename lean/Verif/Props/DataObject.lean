import Verif.Lib.DataObject

/-!
# C111: `DataObject`

Whatever is done with some objects, an object has the attributes its own operations gave it.
-/
namespace Verif.Lib.DataObject

/-! ## Specification -/

/-- The object an operation is called on. -/
def DOp.target : DOp → Option Nat
  | .new .. => none
  | .copy .. => none
  | .update a .. | .setdefaults a .. | .setdefault a .. | .set a .. | .del a .. | .pop a .. | .clear a => some a

/-- Dicts and keyword arguments have every name once. -/
def DOp.Dicts : DOp → Prop
  | .new s _ kw | .update _ s kw => Dict.Nodup (V := DVal) kw ∧ ∀ d, s = .dict d → Dict.Nodup (V := DVal) d
  | .setdefaults _ s => ∀ d, s = .dict d → Dict.Nodup (V := DVal) d
  | _ => True

/-- `first` if there is one. -/
def orElse (first second : Option DVal) : Option DVal :=
  match first with
  | some v => some v
  | none => second

/-- The attribute `k` of the object `a` after an operation that was called on it and did not raise. -/
def meant (h : Objs) (a : Nat) (k : String) : DOp → Option DVal
  | .update _ s kw => orElse (Dict.get? kw k) (orElse (Dict.get? (entries h s) k) ((rd h a).get? k))
  | .setdefaults _ s => orElse ((rd h a).get? k) (Dict.get? (entries h s) k)
  | .setdefault _ k' v => if k' = k then orElse ((rd h a).get? k) (some v) else (rd h a).get? k
  | .set _ k' v => if k' = k then some v else (rd h a).get? k
  | .del _ k' | .pop _ k' _ => if k' = k then none else (rd h a).get? k
  | .clear _ => none
  | _ => (rd h a).get? k

/-- What an operation that is called on `a` returns. -/
def returned (h : Objs) (a : Nat) : DOp → Ret
  | .update _ .none _ => .raised "TypeError"
  | .setdefaults _ .none => .raised "TypeError"
  | .setdefaults _ _ => .value (.object a)
  | .setdefault _ k v => .value ((orElse ((rd h a).get? k) (some v)).getD v)
  | .del _ k => if (rd h a).get? k = none then .raised "KeyError" else .nothing
  | .pop _ k default => match orElse ((rd h a).get? k) default with
    | some v => .value v
    | none => .raised "KeyError"
  | _ => .nothing

/-- The tree is what the value stands for. -/
inductive Unfolds (h : Objs) : DVal → Tree → Prop
  | plain (v : Val) : Unfolds h (.plain v) (.leaf v)
  | object {a : Nat} {l : List (String × Tree)} (keys : l.map (·.1) = (rd h a).map (·.1))
      (each : ∀ (i : Nat) k v t, (rd h a)[i]? = some (k, v) → l[i]? = some (k, t) → Unfolds h v t) : Unfolds h (.object a) (.node l)

/-- `b` is the value of an attribute of `a`. -/
def Part (h : Objs) (b a : Nat) : Prop := ∃ k, (k, DVal.object b) ∈ rd h a

/-! ## Proofs -/

/-- Every object has every attribute once. -/
def Whole (h : Objs) : Prop := ∀ a, Dict.Nodup (rd h a)

theorem rd_set (h : Objs) (a b : Nat) (d : Attrs) (ha : a < h.length) : rd (h.set a d) b = if b = a then d else rd h b := by
  unfold rd
  rw [List.getElem?_set]
  by_cases hab : a = b
  · subst hab; simp [ha]
  · rw [if_neg hab, if_neg (Ne.symm hab)]

theorem rd_out {h : Objs} {a : Nat} (ha : h.length ≤ a) : rd h a = [] := by
  unfold rd; rw [List.getElem?_eq_none_iff.mpr ha]; rfl

theorem set_out {h : Objs} {a : Nat} (ha : h.length ≤ a) (d : Attrs) : h.set a d = h := List.set_eq_of_length_le ha

theorem rd_set_ne (h : Objs) {a b : Nat} (d : Attrs) (hab : b ≠ a) : rd (h.set a d) b = rd h b := by
  unfold rd
  rw [List.getElem?_set_ne (Ne.symm hab)]

theorem rd_append (h : Objs) (d : Attrs) (b : Nat) : rd (h ++ [d]) b = if b = h.length then d else rd h b := by
  unfold rd
  by_cases hb : b < h.length
  · rw [List.getElem?_append_left hb, if_neg (by omega)]
  · by_cases he : b = h.length
    · subst he; simp
    · rw [if_neg he, List.getElem?_eq_none_iff.mpr (by simp; omega), List.getElem?_eq_none_iff.mpr (by omega)]

theorem whole_set {h : Objs} (hw : Whole h) (a : Nat) {d : Attrs} (hd : Dict.Nodup d) : Whole (h.set a d) := by
  intro b
  by_cases ha : a < h.length
  · rw [rd_set _ _ _ _ ha]; split
    · exact hd
    · exact hw b
  · rw [set_out (by omega)]; exact hw b

theorem whole_append {h : Objs} (hw : Whole h) {d : Attrs} (hd : Dict.Nodup d) : Whole (h ++ [d]) := by
  intro b
  rw [rd_append]; split
  · exact hd
  · exact hw b

theorem nodup_addMissing {d : Attrs} (hd : Dict.Nodup d) (l : List (String × DVal)) : Dict.Nodup (addMissing d l) := by
  induction l generalizing d with
  | nil => exact hd
  | cons kv l ih =>
    unfold addMissing
    split
    · exact ih hd
    · exact ih (Dict.nodup_set hd _ _)

theorem get?_addMissing (d : Attrs) (l : List (String × DVal)) (k : String) : Dict.get? (addMissing d l) k = orElse (d.get? k) (Dict.get? l k) := by
  induction l generalizing d with
  | nil => unfold addMissing orElse; cases Dict.get? d k <;> rfl
  | cons kv l ih =>
    unfold addMissing
    rw [ih, Dict.get?_cons]
    cases hh : Dict.has d kv.1 with
    | true =>
      rw [if_pos rfl]
      by_cases hk : kv.1 = k
      · subst hk
        unfold Dict.has at hh
        cases hg : Dict.get? d kv.1 with
        | none => rw [hg] at hh; cases hh
        | some v => rfl
      · rw [if_neg hk]
    | false =>
      rw [if_neg (by simp)]
      by_cases hk : kv.1 = k
      · subst hk
        rw [Dict.get?_set_self, if_pos rfl]
        unfold Dict.has at hh
        cases hg : Dict.get? d kv.1 with
        | none => rfl
        | some v => rw [hg] at hh; cases hh
      · rw [Dict.get?_set_ne _ _ hk, if_neg hk]

theorem get?_upd (d e : Attrs) (he : Dict.Nodup e) (k : String) : Dict.get? (Dict.update d e) k = orElse (Dict.get? e k) (Dict.get? d k) := by
  rw [Dict.get?_update d e he]
  unfold orElse
  cases Dict.get? e k <;> rfl

theorem eraseSelf {d : Attrs} (hd : Dict.Nodup d) (k : String) : Dict.get? (Dict.erase d k) k = none := by
  rw [Dict.get?_erase hd, if_pos rfl]

theorem entries_nodup {h : Objs} (hw : Whole h) {s : Source} (hs : ∀ d, s = .dict d → Dict.Nodup (V := DVal) d) : Dict.Nodup (V := DVal) (entries h s) := by
  cases s with
  | none => exact List.nodup_nil
  | dict d => exact hs d rfl
  | object a => exact hw a

theorem whole_run {h : Objs} (hw : Whole h) (o : DOp) : Whole (o.run h).2 := by
  have hn : Dict.Nodup (K := String) (V := DVal) [] := List.nodup_nil
  cases o with
  | new s ab kw =>
    unfold DOp.run
    split
    · exact hw
    · rename_i e; cases e; exact whole_append hw (Dict.nodup_update (Dict.nodup_update hn _) _)
    all_goals (rename_i e; cases e)
  | copy a => exact whole_append hw (Dict.nodup_update hn _)
  | update a s kw =>
    cases s with
    | none => exact hw
    | dict d => exact whole_set hw _ (Dict.nodup_update (Dict.nodup_update (hw a) _) _)
    | object b => exact whole_set hw _ (Dict.nodup_update (Dict.nodup_update (hw a) _) _)
  | setdefaults a s =>
    cases s with
    | none => exact hw
    | dict d => exact whole_set hw _ (nodup_addMissing (hw a) _)
    | object b => exact whole_set hw _ (nodup_addMissing (hw a) _)
  | setdefault a k v =>
    unfold DOp.run
    simp only []
    split
    · exact hw
    · exact whole_set hw _ (Dict.nodup_set (hw a) _ _)
  | set a k v => exact whole_set hw _ (Dict.nodup_set (hw a) _ _)
  | del a k =>
    unfold DOp.run
    simp only []
    split
    · exact whole_set hw _ (Dict.nodup_erase (hw a) _)
    · exact hw
  | pop a k dflt =>
    unfold DOp.run
    simp only []
    split
    · exact whole_set hw _ (Dict.nodup_erase (hw a) _)
    · split <;> exact hw
  | clear a => exact whole_set hw _ hn

theorem whole_runAll (ops : List DOp) : Whole (runAll [] ops) := by
  suffices ∀ h, Whole h → Whole (runAll h ops) from this [] (fun a => by rw [rd_out (by simp)]; exact List.nodup_nil)
  induction ops with
  | nil => exact fun h hw => hw
  | cons o ops ih => exact fun h hw => ih _ (whole_run hw o)

/-- **C111** (only the object itself).  An operation changes no attribute of any object but the one it is called on. -/
theorem C111_only_target (h : Objs) (o : DOp) (b : Nat) (hb : b < h.length) (ht : o.target ≠ some b) : rd (o.run h).2 b = rd h b := by
  have happ : ∀ d, rd (h ++ [d]) b = rd h b := fun d => by rw [rd_append, if_neg (by omega)]
  cases o with
  | new s ab kw =>
    unfold DOp.run
    split
    · rfl
    · rename_i e; cases e; exact happ _
    all_goals (rename_i e; cases e)
  | copy a => exact happ _
  | update a s kw =>
    have hne : b ≠ a := fun e => ht (by rw [e]; rfl)
    cases s with
    | none => rfl
    | dict d => exact rd_set_ne _ _ hne
    | object c => exact rd_set_ne _ _ hne
  | setdefaults a s =>
    have hne : b ≠ a := fun e => ht (by rw [e]; rfl)
    cases s with
    | none => rfl
    | dict d => exact rd_set_ne _ _ hne
    | object c => exact rd_set_ne _ _ hne
  | setdefault a k v =>
    have hne : b ≠ a := fun e => ht (by rw [e]; rfl)
    unfold DOp.run
    simp only []
    split
    · rfl
    · exact rd_set_ne _ _ hne
  | set a k v => exact rd_set_ne _ _ fun e => ht (by rw [e]; rfl)
  | del a k =>
    have hne : b ≠ a := fun e => ht (by rw [e]; rfl)
    unfold DOp.run
    simp only []
    split
    · exact rd_set_ne _ _ hne
    · rfl
  | pop a k dflt =>
    have hne : b ≠ a := fun e => ht (by rw [e]; rfl)
    unfold DOp.run
    simp only []
    split
    · exact rd_set_ne _ _ hne
    · split <;> rfl
  | clear a => exact rd_set_ne _ _ fun e => ht (by rw [e]; rfl)

theorem length_run (h : Objs) (o : DOp) : h.length ≤ (o.run h).2.length := by
  cases o with
  | new s ab kw =>
    unfold DOp.run
    split
    · exact Nat.le_refl _
    · rename_i e; cases e; simp
    all_goals (rename_i e; cases e)
  | copy a => simp [DOp.run]
  | update a s kw => cases s <;> simp [DOp.run]
  | setdefaults a s => cases s <;> simp [DOp.run]
  | setdefault a k v => unfold DOp.run; simp only []; split <;> simp
  | set a k v => simp [DOp.run]
  | del a k => unfold DOp.run; simp only []; split <;> simp
  | pop a k dflt =>
    unfold DOp.run; simp only []; split
    · simp
    · split <;> simp
  | clear a => simp [DOp.run]

theorem runAll_others (h : Objs) (ops : List DOp) (b : Nat) (hb : b < h.length) (ht : ∀ o ∈ ops, o.target ≠ some b) : rd (runAll h ops) b = rd h b := by
  induction ops generalizing h with
  | nil => rfl
  | cons o ops ih =>
    show rd (runAll (o.run h).2 ops) b = _
    rw [ih _ (Nat.lt_of_lt_of_le hb (length_run h o)) (fun o' ho => ht o' (List.mem_cons_of_mem _ ho)), C111_only_target h o b hb (ht o List.mem_cons_self)]

/-- **C111** (copies).  A copy has the attributes of the original; afterwards, what is done with other objects - the original, for example - changes nothing of the copy, and what is done with other objects - the
copy, for example - nothing of the original. -/
theorem C111_copy (past : List DOp) (a : Nat) (ha : a < (runAll [] past).length) (ops : List DOp) :
    let h := runAll [] past
    ∃ b, ((DOp.copy a).run h).1 = .value (.object b) ∧ b ≠ a ∧
      ((∀ o ∈ ops, o.target ≠ some b) → ∀ k, (rd (runAll ((DOp.copy a).run h).2 ops) b).get? k = (rd h a).get? k) ∧
      ((∀ o ∈ ops, o.target ≠ some a) → rd (runAll ((DOp.copy a).run h).2 ops) a = rd h a) := by
  intro h
  have hw := whole_runAll past
  refine ⟨h.length, rfl, by have : a < h.length := ha; omega, fun ht k => ?_, fun ht => ?_⟩
  · rw [runAll_others _ _ _ (by simp [DOp.run]) ht]
    show Dict.get? (rd (h ++ [_]) h.length) k = _
    rw [rd_append, if_pos rfl, get?_upd _ _ (hw a)]
    unfold orElse
    cases Dict.get? (rd h a) k <;> rfl
  · rw [runAll_others _ _ _ (by simp [DOp.run]; have : a < h.length := ha; omega) ht]
    exact C111_only_target h (.copy a) a ha (by simp [DOp.target])

/-- **C111** (results).  An operation returns, or raises, what it is meant to. -/
theorem C111_returns (h : Objs) (a : Nat) (o : DOp) (ht : o.target = some a) : (o.run h).1 = returned h a o := by
  cases o with
  | new s ab kw => cases ht
  | copy c => cases ht
  | update c s kw => cases s <;> rfl
  | setdefaults c s => injection ht with ht; subst ht; cases s <;> rfl
  | setdefault c x v =>
    injection ht with ht; subst ht
    unfold DOp.run returned
    simp only []
    cases Dict.get? (rd h c) x <;> rfl
  | set c x v => rfl
  | del c x =>
    injection ht with ht; subst ht
    unfold DOp.run returned Dict.has
    simp only []
    cases Dict.get? (rd h c) x <;> simp
  | pop c x dflt =>
    injection ht with ht; subst ht
    unfold DOp.run returned
    simp only []
    cases Dict.get? (rd h c) x with
    | some w => rfl
    | none => cases dflt <;> rfl
  | clear c => rfl

/-- **C111** (attributes).  After an operation that does not raise, the object has the attributes it is meant to have, and the operation returns what it is meant to return; an operation that raises changes nothing. -/
theorem C111_attributes (past : List DOp) (o : DOp) (ho : o.Dicts) (a : Nat) (ha : a < (runAll [] past).length) (ht : o.target = some a) :
    let h := runAll [] past
    (o.run h).1 = returned h a o ∧ ((∃ e, (o.run h).1 = .raised e ∧ (o.run h).2 = h) ∨ (∀ e, (o.run h).1 ≠ .raised e) ∧ ∀ k, (rd (o.run h).2 a).get? k = meant h a k o) := by
  intro h
  have hw : Whole h := whole_runAll past
  have hal : a < h.length := ha
  have self : ∀ d, rd (h.set a d) a = d := fun d => by rw [rd_set _ _ _ _ hal, if_pos rfl]
  refine ⟨C111_returns h a o ht, ?_⟩
  cases o with
  | new s ab kw => cases ht
  | copy c => cases ht
  | update c s kw =>
    injection ht with ht
    subst ht
    cases s with
    | none => exact .inl ⟨_, rfl, rfl⟩
    | dict d =>
      refine .inr ⟨nofun, fun k => ?_⟩
      show Dict.get? (rd (h.set c _) c) k = _
      rw [self, get?_upd _ _ ho.1, get?_upd _ _ (entries_nodup hw ho.2)]
      rfl
    | object b =>
      refine .inr ⟨nofun, fun k => ?_⟩
      show Dict.get? (rd (h.set c _) c) k = _
      rw [self, get?_upd _ _ ho.1, get?_upd _ _ (entries_nodup hw ho.2)]
      rfl
  | setdefaults c s =>
    injection ht with ht
    subst ht
    cases s with
    | none => exact .inl ⟨_, rfl, rfl⟩
    | dict d =>
      refine .inr ⟨nofun, fun k => ?_⟩
      show Dict.get? (rd (h.set c _) c) k = _
      rw [self, get?_addMissing]
      rfl
    | object b =>
      refine .inr ⟨nofun, fun k => ?_⟩
      show Dict.get? (rd (h.set c _) c) k = _
      rw [self, get?_addMissing]
      rfl
  | setdefault c x v =>
    injection ht with ht
    subst ht
    right
    unfold DOp.run meant
    simp only []
    cases hg : Dict.get? (rd h c) x with
    | some w =>
      refine ⟨nofun, fun k => ?_⟩
      simp only []
      by_cases hk : x = k
      · subst hk; rw [if_pos rfl, hg]; rfl
      · rw [if_neg hk]
    | none =>
      refine ⟨nofun, fun k => ?_⟩
      simp only []
      rw [self]
      by_cases hk : x = k
      · subst hk; rw [if_pos rfl, hg, Dict.get?_set_self]; rfl
      · rw [if_neg hk, Dict.get?_set_ne _ _ hk]
  | set c x v =>
    injection ht with ht
    subst ht
    refine .inr ⟨nofun, fun k => ?_⟩
    show Dict.get? (rd (h.set c _) c) k = _
    rw [self, Dict.get?_set]
    unfold meant
    by_cases hk : x = k
    · subst hk; simp
    · simp [hk]
  | del c x =>
    injection ht with ht
    subst ht
    unfold DOp.run
    simp only []
    cases hh : Dict.has (rd h c) x with
    | false => exact .inl ⟨_, by rw [if_neg (by simp)], by rw [if_neg (by simp)]⟩
    | true =>
      refine .inr ⟨by rw [if_pos rfl]; nofun, fun k => ?_⟩
      rw [if_pos rfl]
      simp only []
      rw [self]
      unfold meant
      by_cases hk : x = k
      · subst hk; simp only [if_true]; exact eraseSelf (hw c) _
      · simp only [if_neg hk]; exact Dict.get?_erase_ne _ hk
  | pop c x dflt =>
    injection ht with ht
    subst ht
    unfold DOp.run
    simp only []
    cases hg : Dict.get? (rd h c) x with
    | some w =>
      refine .inr ⟨nofun, fun k => ?_⟩
      simp only []
      rw [self]
      unfold meant
      by_cases hk : x = k
      · subst hk; simp only [if_true]; exact eraseSelf (hw c) _
      · simp only [if_neg hk]; exact Dict.get?_erase_ne _ hk
    | none =>
      cases dflt with
      | none => exact .inl ⟨_, rfl, rfl⟩
      | some w =>
        refine .inr ⟨nofun, fun k => ?_⟩
        simp only []
        unfold meant
        by_cases hk : x = k
        · subst hk; simp only [if_true]; exact hg
        · simp only [if_neg hk]
  | clear c =>
    injection ht with ht
    subst ht
    refine .inr ⟨nofun, fun k => ?_⟩
    show Dict.get? (rd (h.set c _) c) k = _
    rw [self]; rfl

/-- **C111** (new objects).  `DataObject(source, **kwargs)` is a new object with the entries of `source`, which those of `kwargs` override. -/
theorem C111_new (past : List DOp) (s : Source) (absent : Bool) (kw : List (String × DVal)) (ho : (DOp.new s absent kw).Dicts) (hs : s = .none → absent = true) :
    let h := runAll [] past
    ((DOp.new s absent kw).run h).1 = .value (.object h.length) ∧
      ∀ k, (rd ((DOp.new s absent kw).run h).2 h.length).get? k = orElse (Dict.get? kw k) (Dict.get? (entries h s) k) := by
  intro h
  have hw : Whole h := whole_runAll past
  have hr : (DOp.new s absent kw).run h = (.value (.object h.length), h ++ [Dict.update (Dict.update [] (entries h s)) kw]) := by
    cases s with
    | none => rw [hs rfl]; rfl
    | dict d => rfl
    | object a => rfl
  rw [hr]
  refine ⟨rfl, fun k => ?_⟩
  simp only []
  rw [rd_append, if_pos rfl, get?_upd _ _ ho.1, get?_upd _ _ (entries_nodup hw ho.2)]
  congr 1
  unfold orElse
  cases Dict.get? (entries h s) k <;> rfl

/-! ### `_to_dict` -/

theorem eachTree_keys {f : DVal → Option Tree} {l : List (String × DVal)} {r : List (String × Tree)} (h : eachTree f l = some r) :
    r.map (·.1) = l.map (·.1) ∧ ∀ (i : Nat) k v t, l[i]? = some (k, v) → r[i]? = some (k, t) → f v = some t := by
  induction l generalizing r with
  | nil => injection h with h; subst h; exact ⟨rfl, fun i k v t hi => by simp at hi⟩
  | cons kv l ih =>
    obtain ⟨k0, v0⟩ := kv
    unfold eachTree at h
    cases hf : f v0 with
    | none => rw [hf] at h; cases h
    | some t0 =>
      cases he : eachTree f l with
      | none => rw [hf, he] at h; cases h
      | some r0 =>
        rw [hf, he] at h
        injection h with h
        subst h
        obtain ⟨h1, h2⟩ := ih he
        refine ⟨by simp [h1], fun i k v t hi ht => ?_⟩
        cases i with
        | zero =>
          simp only [List.getElem?_cons_zero, Option.some.injEq, Prod.mk.injEq] at hi ht
          rw [← hi.2, ← ht.2]; exact hf
        | succ i =>
          simp only [List.getElem?_cons_succ] at hi ht
          exact h2 i k v t hi ht

theorem toTree_sound {h : Objs} {n : Nat} {x : DVal} {t : Tree} (e : toTree h n x = some t) : Unfolds h x t := by
  induction n generalizing x t with
  | zero =>
    cases x with
    | plain v => injection e with e; subst e; exact .plain v
    | object a => cases e
  | succ n ih =>
    cases x with
    | plain v => injection e with e; subst e; exact .plain v
    | object a =>
      unfold toTree at e
      cases hr : eachTree (toTree h n) (rd h a) with
      | none => rw [hr] at e; cases e
      | some l =>
        rw [hr] at e
        injection e with e
        subst e
        obtain ⟨h1, h2⟩ := eachTree_keys hr
        exact .object h1 fun i k v t hi ht => ih (h2 i k v t hi ht)

/-- Everything below is finite. -/
theorem eachTree_some {f : DVal → Option Tree} {l : List (String × DVal)} (hf : ∀ kv ∈ l, ∃ t, f kv.2 = some t) : ∃ r, eachTree f l = some r := by
  induction l with
  | nil => exact ⟨[], rfl⟩
  | cons kv l ih =>
    obtain ⟨t, ht⟩ := hf kv List.mem_cons_self
    obtain ⟨r, hr⟩ := ih fun x hx => hf x (List.mem_cons_of_mem _ hx)
    unfold eachTree
    rw [ht, hr]
    exact ⟨_, rfl⟩

/-- **C111** (`_to_dict`).  If no object is part of itself, then `_to_dict` returns: the tree which the object stands for, without any `DataObject` that is the value of an attribute. -/
theorem C111_to_dict (h : Objs) (rank : Nat → Nat) (hr : ∀ a b, Part h b a → rank b < rank a) (a n : Nat) (hn : rank a < n) :
    ∃ t, toTree h n (.object a) = some t ∧ Unfolds h (.object a) t := by
  suffices ∃ t, toTree h n (.object a) = some t from this.imp fun t ht => ⟨ht, toTree_sound ht⟩
  induction n generalizing a with
  | zero => omega
  | succ n ih =>
    unfold toTree
    obtain ⟨r, hr'⟩ := eachTree_some (f := toTree h n) (l := rd h a) fun kv hkv => by
      obtain ⟨k, v⟩ := kv
      cases v with
      | plain v => exact ⟨.leaf v, by unfold toTree; rfl⟩
      | object b => exact ih b (by have := hr a b ⟨k, hkv⟩; omega)
    rw [hr']
    exact ⟨_, rfl⟩

/-- **C111** (one tree).  What an object stands for is determined. -/
theorem C111_to_dict_unique (h : Objs) (x : DVal) (t t' : Tree) (e : Unfolds h x t) (e' : Unfolds h x t') : t = t' := by
  induction e generalizing t' with
  | plain v => cases e'; rfl
  | @object a l keys each ih =>
    cases e' with
    | @object _ l' keys' each' =>
      congr 1
      have hk : l.map (·.1) = l'.map (·.1) := by rw [keys, keys']
      apply List.ext_getElem?
      intro i
      have hki : (l.map (·.1))[i]? = (l'.map (·.1))[i]? := by rw [hk]
      have hri : (l.map (·.1))[i]? = ((rd h a).map (·.1))[i]? := by rw [keys]
      simp only [List.getElem?_map] at hki hri
      cases hl : l[i]? with
      | none =>
        rw [hl] at hki
        cases hl' : l'[i]? with
        | none => rfl
        | some y => rw [hl'] at hki; cases hki
      | some y =>
        obtain ⟨k, t⟩ := y
        rw [hl] at hki hri
        cases hl' : l'[i]? with
        | none => rw [hl'] at hki; cases hki
        | some y' =>
          obtain ⟨k', t'⟩ := y'
          rw [hl'] at hki
          cases hd : (rd h a)[i]? with
          | none => rw [hd] at hri; cases hri
          | some z =>
            obtain ⟨k'', v⟩ := z
            rw [hd] at hri
            simp only [Option.map_some, Option.some.injEq] at hki hri
            subst hki
            subst hri
            rw [ih i k v t hd hl t' (each' i k v t' hd hl')]

/-- **C111** (cycles).  If objects are parts of each other in a circle, or there is an endless descent, then `_to_dict` of each of them ends with a `RecursionError`, however deep the interpreter recurses. -/
theorem C111_to_dict_cycle (h : Objs) (S : Nat → Prop) (hS : ∀ a, S a → ∃ b, S b ∧ Part h b a) (a : Nat) (ha : S a) (n : Nat) : toTree h n (.object a) = none := by
  induction n generalizing a with
  | zero => unfold toTree; rfl
  | succ n ih =>
    unfold toTree
    obtain ⟨b, hb, k, hk⟩ := hS a ha
    suffices eachTree (toTree h n) (rd h a) = none by rw [this]; rfl
    generalize rd h a = l at hk
    induction l with
    | nil => cases hk
    | cons kv l ihl =>
      unfold eachTree
      rcases List.mem_cons.1 hk with e | e
      · subst e; rw [ih b hb]
      · rw [ihl e]; cases toTree h n kv.2 <;> rfl

/-! ## The hypotheses are met -/

namespace Sample

/-- `d = DataObject(x=1); e = DataObject({'d': d}, y=2)`. -/
def past : List DOp := [.new .none true [("x", .plain (.int 1))], .new (.dict [("d", .object 0)]) false [("y", .plain (.int 2))]]
/-- The objects afterwards. -/
def heap : Objs := [[("x", .plain (.int 1))], [("d", .object 0), ("y", .plain (.int 2))]]
example : runAll [] past = heap := rfl
example := C111_copy past 1 (by decide) [.set 1 "y" (.plain (.int 3)), .del 1 "d"]
example := C111_new past (.object 1) false [("y", .plain .none)] ⟨by unfold Dict.Nodup; decide, nofun⟩ nofun
example := C111_attributes past (.setdefaults 1 (.object 0)) nofun 1 (by decide) rfl
example := C111_attributes past (.update 1 (.dict [("x", .plain .none)]) [("z", .object 0)]) ⟨by unfold Dict.Nodup; decide, fun d h => by cases h; unfold Dict.Nodup; decide⟩ 1 (by decide) rfl
theorem heap_ranked : ∀ a b, Part heap b a → b < a := by
  rintro a b ⟨k, hk⟩
  rcases a with _ | _ | a
  · simp [heap, rd] at hk
  · simp [heap, rd] at hk; omega
  · simp [heap, rd] at hk
example := C111_to_dict heap id heap_ranked 1 2 (by decide)
example : toTree heap 2 (.object 1) = some (.node [("d", .node [("x", .leaf (.int 1))]), ("y", .leaf (.int 2))]) := rfl
/-- `d.me = d`. -/
def ring : Objs := [[("me", .object 0)]]
example : ∀ n, toTree ring n (.object 0) = none := C111_to_dict_cycle ring (· = 0) (fun a ha => ⟨0, rfl, "me", by subst ha; simp [ring, rd]⟩) 0 rfl

/-- **C111** (`_update` without a source).  `d._update(x=1)`, the counterpart of `dict.update(x=1)`, raises a `TypeError`. -/
theorem C111_counterexample_update (h : Objs) (a : Nat) (kw : List (String × DVal)) : (DOp.update a .none kw).run h = (.raised "TypeError", h) := rfl

/-- **C111** (copies are shallow).  An attribute that is a `DataObject` is shared by the copy: changed through the original, it is changed in the copy. -/
theorem C111_counterexample_shallow :
    toTree (runAll heap [.copy 1, .set 0 "x" (.plain (.int 9))]) 3 (.object 2) = some (.node [("d", .node [("x", .leaf (.int 9))]), ("y", .leaf (.int 2))]) ∧
    toTree (runAll heap [.copy 1]) 3 (.object 2) = some (.node [("d", .node [("x", .leaf (.int 1))]), ("y", .leaf (.int 2))]) := ⟨rfl, rfl⟩

end Sample
end Verif.Lib.DataObject
