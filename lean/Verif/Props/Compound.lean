import Verif.Samples
import Verif.Props.Import3

/-! # Lists and dicts (C13, C14), validator chain (C18) -/
namespace Verif

/-! ## helper lemmas -/

theorem listLoop_ok {f : Val → R Val} {xs : List Val} {i : Nat} {ys : List Val} {es : Errs}
    (h : listLoop f i xs = .ok (ys, es)) :
    (es = [] ↔ All2 (fun x y => f x = .ok y) xs ys) ∧
    (∀ k, k ∈ Dict.keys es ↔ ∃ j x e, xs[j]? = some x ∧ k = .int ((i + j : Nat) : Int) ∧ f x = .error e) ∧
    (∀ j x e, xs[j]? = some x → f x = .error e → Dict.get? es (.int ((i + j : Nat) : Int)) = some e.tree) ∧
    (∀ x ∈ xs, ∀ e, f x = .error e → e.caught = true) ∧
    (es = [] → ys.length = xs.length) := by
  induction xs generalizing i ys es with
  | nil =>
    simp [listLoop] at h
    obtain ⟨rfl, rfl⟩ := h
    simp
    exact .nil
  | cons x xs ih =>
    simp only [listLoop] at h
    cases hx : f x with
    | ok y =>
      rw [hx] at h
      simp only [] at h
      cases hr : listLoop f (i + 1) xs with
      | error e => rw [hr] at h; cases h
      | ok p =>
        obtain ⟨ys', es'⟩ := p
        rw [hr] at h
        simp only [Except.ok.injEq, Prod.mk.injEq] at h
        obtain ⟨rfl, rfl⟩ := h
        obtain ⟨h1, h2, h3, h4, h5⟩ := ih hr
        refine ⟨?_, ?_, ?_, ?_, ?_⟩
        · rw [h1]
          constructor
          · intro h; exact .cons hx h
          · intro h; cases h; assumption
        · intro k
          rw [h2]
          constructor
          · rintro ⟨j, x', e, a, b, c⟩
            exact ⟨j + 1, x', e, by simpa using a, by rw [b]; congr 2; omega, c⟩
          · rintro ⟨j, x', e, a, b, c⟩
            cases j with
            | zero => simp at a; subst a; rw [hx] at c; cases c
            | succ j => exact ⟨j, x', e, by simpa using a, by rw [b]; congr 2; omega, c⟩
        · intro j x' e a c
          cases j with
          | zero => simp at a; subst a; rw [hx] at c; cases c
          | succ j =>
            have := h3 j x' e (by simpa using a) c
            have e2 : i + (j + 1) = i + 1 + j := by omega
            rw [e2]; exact this
        · intro x' hx' e he
          rcases List.mem_cons.1 hx' with rfl | hx'
          · rw [hx] at he; cases he
          · exact h4 x' hx' e he
        · intro h; simp [h5 h]
    | error e0 =>
      rw [hx] at h
      simp only [] at h
      split at h
      · rename_i hc
        cases hr : listLoop f (i + 1) xs with
        | error e => rw [hr] at h; cases h
        | ok p =>
          obtain ⟨ys', es'⟩ := p
          rw [hr] at h
          simp only [Except.ok.injEq, Prod.mk.injEq] at h
          obtain ⟨rfl, rfl⟩ := h
          obtain ⟨h1, h2, h3, h4, h5⟩ := ih hr
          refine ⟨?_, ?_, ?_, ?_, ?_⟩
          · simp only [reduceCtorEq, false_iff]
            intro h
            cases h with
            | cons a b => rw [hx] at a; cases a
          · intro k
            rw [Dict.keys_cons, List.mem_cons, h2]
            constructor
            · rintro (rfl | ⟨j, x', e, a, b, c⟩)
              · exact ⟨0, x, e0, rfl, rfl, hx⟩
              · exact ⟨j + 1, x', e, by simpa using a, by rw [b]; congr 2; omega, c⟩
            · rintro ⟨j, x', e, a, b, c⟩
              cases j with
              | zero => left; simpa using b
              | succ j => right; exact ⟨j, x', e, by simpa using a, by rw [b]; congr 2; omega, c⟩
          · intro j x' e a c
            rw [Dict.get?_cons]
            cases j with
            | zero =>
              simp at a; subst a; rw [hx] at c; injection c with c; subst c
              simp
            | succ j =>
              have := h3 j x' e (by simpa using a) c
              have e2 : i + (j + 1) = i + 1 + j := by omega
              rw [e2, if_neg]
              · exact this
              · intro hh; injection hh with hh; omega
          · intro x' hx' e he
            rcases List.mem_cons.1 hx' with rfl | hx'
            · rw [hx] at he; injection he with he; rw [← he]; exact hc
            · exact h4 x' hx' e he
          · intro h; cases h
      · cases h

theorem listLoop_error {f : Val → R Val} {xs : List Val} {i : Nat} {e : Exc}
    (h : listLoop f i xs = .error e) : ∃ x ∈ xs, f x = .error e ∧ e.caught = false := by
  induction xs generalizing i with
  | nil => simp [listLoop] at h
  | cons x xs ih =>
    simp only [listLoop] at h
    cases hx : f x with
    | ok y =>
      rw [hx] at h
      simp only [] at h
      cases hr : listLoop f (i + 1) xs with
      | error e' =>
        rw [hr] at h; injection h with h; subst h
        obtain ⟨x', h1, h2⟩ := ih hr
        exact ⟨x', by simp [h1], h2⟩
      | ok p => rw [hr] at h; cases h
    | error e0 =>
      rw [hx] at h
      simp only [] at h
      split at h
      · cases hr : listLoop f (i + 1) xs with
        | error e' =>
          rw [hr] at h; injection h with h; subst h
          obtain ⟨x', h1, h2⟩ := ih hr
          exact ⟨x', by simp [h1], h2⟩
        | ok p => rw [hr] at h; cases h
      · rename_i hc
        injection h with h; subst h
        exact ⟨x, by simp, hx, by simpa using hc⟩

theorem forall2_ok_unique {f : Val → R Val} {xs ys zs : List Val}
    (h1 : All2 (fun x y => f x = .ok y) xs ys)
    (h2 : All2 (fun x y => f x = .ok y) xs zs) : ys = zs := by
  induction h1 generalizing zs with
  | nil => cases h2; rfl
  | cons a _ ih =>
    cases h2 with
    | cons b c =>
      rw [a] at b; injection b with b
      rw [b, ih c]

theorem listLoop_of_caught {f : Val → R Val} {xs : List Val} (i : Nat)
    (h : ∀ x ∈ xs, ∀ e, f x = .error e → e.caught = true) : ∃ p, listLoop f i xs = .ok p := by
  cases hr : listLoop f i xs with
  | ok p => exact ⟨p, rfl⟩
  | error e =>
    obtain ⟨x, h1, h2, h3⟩ := listLoop_error hr
    rw [h x h1 e h2] at h3; cases h3

theorem forall2_total {f : Val → R Val} {xs ys : List Val}
    (h : All2 (fun x y => f x = .ok y) xs ys) : ∀ x ∈ xs, ∃ y, f x = .ok y := by
  induction h with
  | nil => simp
  | cons a _ ih =>
    intro x hx
    rcases List.mem_cons.1 hx with rfl | hx
    · exact ⟨_, a⟩
    · exact ih x hx

/-! ## C13 -/

/-- A key as a value. -/
def keyVal : Key → Val
  | .str s => .str s
  | .int i => .int i

/-- The values that a list field takes as a list, and their items: lists and tuples, bytes (their numbers) and model instances (the names of their fields).
Strings and mappings are not among them. -/
inductive ListItems (env : Env) : Val → List Val → Prop
  | list (xs) : ListItems env (.list xs) xs
  | tuple (xs) : ListItems env (.tuple xs) xs
  | bytes (bs : List Nat) : ListItems env (.bytes bs) (bs.map fun (b : Nat) => .int (b : Int))
  | inst (c d) : ListItems env (.inst c d) ((env.view c d).keys.map keyVal)

theorem All2.append {α β : Type} {P : α → β → Prop} : ∀ {as : List α} {bs : List β} {cs : List α} {ds : List β}, All2 P as bs → All2 P cs ds →
    All2 P (as ++ cs) (bs ++ ds)
  | [], [], _, _, .nil, h => h
  | _ :: _, _ :: _, _, _, .cons h1 h2, h => .cons h1 (h2.append h)

theorem listItems_iff (env : Env) (v : Val) (xs : List Val) : ListItems env v xs ↔ coerceList env v = some xs := by
  have hk : ∀ d : Data, (d.map fun kv => match kv.1 with | .str s => Val.str s | .int i => Val.int i) = d.keys.map keyVal := by
    intro d
    rw [Dict.keys, List.map_map]
    apply List.map_congr_left
    rintro ⟨k, v⟩ _
    cases k <;> rfl
  constructor
  · intro h
    cases h with
    | list => rfl
    | tuple => rfl
    | bytes => rfl
    | inst c d =>
      rw [← hk]; rfl
  · intro h
    cases v with
    | list ys => cases h; exact .list _
    | tuple ys => cases h; exact .tuple _
    | bytes bs => cases h; exact .bytes _
    | inst c d =>
      have : xs = (env.view c d).keys.map keyVal := by
        rw [← hk]; exact (Option.some.inj h).symm
      subst this
      exact .inst c d
    | _ => cases h

theorem listItems_none (env : Env) (v : Val) : (∀ xs, ¬ ListItems env v xs) ↔ coerceList env v = none := by
  constructor
  · intro h
    cases hc : coerceList env v with
    | none => rfl
    | some xs => exact absurd ((listItems_iff env v xs).2 hc) (h xs)
  · intro h xs hx
    rw [listItems_iff, h] at hx
    cases hx

/-- **C13.** Converting a list-like value `v` with items `xs` in a list field, where the
items convert as `conv`:
1. the conversion succeeds with `w` iff `w` is the list of the converted items in
   the same order and number;
2. if some item fails (and no item crashes with a foreign exception) it fails with
   one compound error;
3. the keys of this error are exactly the indices of the failing items, each
   with that item's own error;
4. any other error is an item's foreign exception.
A value that is not list-like is refused with a `ConversionError`. -/
theorem C13_list_elementwise (env : Env) (n : Nat) (ctx : Ctx) (named : Bool) (inner : Field)
    (mn mx : Option Nat) (o : FieldOpts) (v : Val) (hne : v.isEmpty = false)
    (hconv : ctx.conv = .imp) (conv : Val → R Val) (hc : conv = fieldConv env n ctx false inner)
    (run : R Val) (hrun : run = fieldConv env (n + 1) ctx named (.mk (.list inner mn mx) o) v) :
    (∀ xs, ListItems env v xs →
      (∀ w, run = .ok w ↔ ∃ ys, w = .list ys ∧ All2 (fun x y => conv x = .ok y) xs ys) ∧
      ((∃ x ∈ xs, ∃ e, conv x = .error e) → (∀ x ∈ xs, ∀ e, conv x = .error e → e.caught = true) →
        ∃ es, run = .error (.compound es)) ∧
      (∀ es, run = .error (.compound es) →
        (∀ k, k ∈ Dict.keys es ↔
          ∃ i x e, xs[i]? = some x ∧ k = .int ((i : Nat) : Int) ∧ conv x = .error e) ∧
        ∀ i x e, xs[i]? = some x → conv x = .error e →
          Dict.get? es (.int ((i : Nat) : Int)) = some e.tree) ∧
      (∀ e, run = .error e → (∃ es, e = .compound es) ∨
        ∃ x ∈ xs, conv x = .error e ∧ e.caught = false)) ∧
    ((∀ xs, ¬ ListItems env v xs) → run = .error (.field .conv ["list"])) := by
  have hr : run = match coerceList env v with
      | none => convErr "list"
      | some xs => listConv conv xs := by
    rw [hrun, hc]
    simp only [fieldConv, fieldConvF, requiredFails, hne, Bool.and_false, Bool.false_and,
      Bool.false_eq_true, if_false, hconv, convertF, Field.ty_mk]
    cases coerceList env v <;> rfl
  refine ⟨fun xs hxs => ?_, fun h => by rw [hr, (listItems_none env v).1 h]; rfl⟩
  rw [(listItems_iff env v xs).1 hxs] at hr
  simp only [] at hr
  unfold listConv at hr
  cases hl : listLoop conv 0 xs with
  | error e =>
    rw [hl] at hr
    obtain ⟨x, h1, h2, h3⟩ := listLoop_error hl
    simp only [] at hr
    refine ⟨fun w => ⟨fun h => (by rw [hr] at h; cases h), ?_⟩, ?_, ?_, ?_⟩
    · rintro ⟨ys, _, h⟩
      obtain ⟨y, hy⟩ := forall2_total h x h1
      rw [h2] at hy; cases hy
    · intro _ h; rw [h x h1 e h2] at h3; cases h3
    · intro es h; rw [hr] at h; injection h with h; subst h; cases h3
    · intro e' h; rw [hr] at h; injection h with h; subst h
      exact Or.inr ⟨x, h1, h2, h3⟩
  | ok p =>
    obtain ⟨ys, es⟩ := p
    rw [hl] at hr
    simp only [] at hr
    obtain ⟨h1, h2, h3, h4, h5⟩ := listLoop_ok hl
    simp only [Nat.zero_add] at h2 h3
    cases es with
    | nil =>
      simp only [List.isEmpty_nil, if_true] at hr
      have hall := h1.1 rfl
      refine ⟨fun w => ⟨fun h => ?_, ?_⟩, ?_, ?_, ?_⟩
      · rw [hr] at h; injection h with h; exact ⟨ys, h.symm, hall⟩
      · rintro ⟨zs, rfl, h⟩; rw [hr, forall2_ok_unique hall h]
      · rintro ⟨x, hx, e, he⟩ _
        obtain ⟨y, hy⟩ := forall2_total hall x hx
        rw [he] at hy; cases hy
      · intro es h; rw [hr] at h; cases h
      · intro e h; rw [hr] at h; cases h
    | cons a es =>
      simp only [List.isEmpty_cons, Bool.false_eq_true, if_false] at hr
      refine ⟨fun w => ⟨fun h => (by rw [hr] at h; cases h), ?_⟩, ?_, ?_, ?_⟩
      · rintro ⟨zs, _, h⟩
        obtain ⟨j, x, e, hj, _, he⟩ := (h2 a.1).1 (by simp)
        obtain ⟨y, hy⟩ := forall2_total h x (List.mem_of_getElem? hj)
        rw [he] at hy; cases hy
      · intro _ _; exact ⟨_, hr⟩
      · intro es' h; rw [hr] at h
        injection h with h
        injection h with h
        subst h
        exact ⟨h2, h3⟩
      · intro e h; rw [hr] at h
        injection h with h
        exact Or.inl ⟨_, h.symm⟩

/-! ## C14 -/

/-- Converting one entry of a dict field: the value first, then the key. -/
def convEntry (conv : Val → R Val) (coerce : Key → R Key) (k : Key) (x : Val) : R (Key × Val) :=
  match conv x with
  | .error e => .error e
  | .ok y =>
    match coerce k with
    | .error e => .error e
    | .ok k' => .ok (k', y)

theorem dictLoop_cons (f : Val → R Val) (co : Key → R Key) (k : Key) (x : Val)
    (kvs : List (Key × Val)) (d : Data) (es : Errs) :
    dictLoop f co ((k, x) :: kvs) d es =
      match convEntry f co k x with
      | .ok (k', y) => dictLoop f co kvs (d.set k' y) es
      | .error e => if e.caught then dictLoop f co kvs d (es.set k e.tree) else .error e := by
  unfold convEntry
  rw [dictLoop]
  cases f x with
  | error e => rfl
  | ok y => cases co k <;> rfl

/-- The last converted entry with a given key. -/
def lastEntry (entry : Key → Val → R (Key × Val)) (k' : Key) : List (Key × Val) → Option Val
  | [] => none
  | (k, x) :: kvs =>
    (lastEntry entry k' kvs).or
      (match entry k x with
        | .ok (j, y) => if j = k' then some y else none
        | .error _ => none)

theorem dictLoop_spec {f : Val → R Val} {co : Key → R Key} {kvs : List (Key × Val)} {d d' : Data}
    {es es' : Errs} (h : dictLoop f co kvs d es = .ok (d', es')) :
    (∀ k, Dict.get? d' k = (lastEntry (convEntry f co) k kvs).or (Dict.get? d k)) ∧
    (∀ k, k ∈ Dict.keys es' ↔ k ∈ Dict.keys es ∨ ∃ x e, (k, x) ∈ kvs ∧ convEntry f co k x = .error e) ∧
    (∀ kx ∈ kvs, ∀ e, convEntry f co kx.1 kx.2 = .error e → e.caught = true) ∧
    ((kvs.map (·.1)).Nodup → ∀ k x e, (k, x) ∈ kvs → convEntry f co k x = .error e →
      Dict.get? es' k = some e.tree) ∧
    (∀ k, (∀ x, (k, x) ∉ kvs) → Dict.get? es' k = Dict.get? es k) ∧
    (Dict.Nodup d → Dict.Nodup d') := by
  induction kvs generalizing d es with
  | nil =>
    simp [dictLoop] at h
    obtain ⟨rfl, rfl⟩ := h
    simp [lastEntry]
  | cons kx kvs ih =>
    obtain ⟨k0, x0⟩ := kx
    rw [dictLoop_cons] at h
    cases he : convEntry f co k0 x0 with
    | ok p =>
      obtain ⟨k', y⟩ := p
      rw [he] at h
      simp only [] at h
      obtain ⟨h1, h2, h3, h4, h5, h6⟩ := ih h
      refine ⟨?_, ?_, ?_, ?_, ?_, ?_⟩
      · intro k
        rw [h1, Dict.get?_set, lastEntry, he]
        simp only []
        cases lastEntry (convEntry f co) k kvs <;> simp
        split <;> simp
      · intro k
        rw [h2]
        refine or_congr Iff.rfl ⟨?_, ?_⟩
        · rintro ⟨x, e, a, b⟩; exact ⟨x, e, by simp [a], b⟩
        · rintro ⟨x, e, a, b⟩
          rcases List.mem_cons.1 a with a | a
          · injection a with a1 a2; subst a1 a2; rw [he] at b; cases b
          · exact ⟨x, e, a, b⟩
      · intro kx hkx e hee
        rcases List.mem_cons.1 hkx with rfl | hkx
        · rw [he] at hee; cases hee
        · exact h3 kx hkx e hee
      · intro hnd k x e hkx hee
        simp only [List.map_cons, List.nodup_cons] at hnd
        rcases List.mem_cons.1 hkx with a | a
        · injection a with a1 a2; subst a1 a2; rw [he] at hee; cases hee
        · exact h4 hnd.2 k x e a hee
      · intro k hk
        exact h5 k fun x hx => hk x (by simp [hx])
      · intro hnd; exact h6 (Dict.nodup_set hnd _ _)
    | error e0 =>
      rw [he] at h
      simp only [] at h
      split at h
      · rename_i hc
        obtain ⟨h1, h2, h3, h4, h5, h6⟩ := ih h
        refine ⟨?_, ?_, ?_, ?_, ?_, ?_⟩
        · intro k; rw [h1, lastEntry, he]; simp
        · intro k
          rw [h2, Dict.mem_keys_set]
          constructor
          · rintro ((rfl | h) | ⟨x, e, a, b⟩)
            · exact Or.inr ⟨x0, e0, by simp, he⟩
            · exact Or.inl h
            · exact Or.inr ⟨x, e, by simp [a], b⟩
          · rintro (h | ⟨x, e, a, b⟩)
            · exact Or.inl (Or.inr h)
            · rcases List.mem_cons.1 a with a | a
              · injection a with a1 a2; exact Or.inl (Or.inl a1)
              · exact Or.inr ⟨x, e, a, b⟩
        · intro kx hkx e hee
          rcases List.mem_cons.1 hkx with rfl | hkx
          · rw [he] at hee; injection hee with hee; rw [← hee]; exact hc
          · exact h3 kx hkx e hee
        · intro hnd k x e hkx hee
          simp only [List.map_cons, List.nodup_cons] at hnd
          rcases List.mem_cons.1 hkx with a | a
          · injection a with a1 a2; subst a1 a2
            rw [he] at hee; injection hee with hee; subst hee
            rw [h5 k fun x hx => hnd.1 (List.mem_map.2 ⟨(k, x), hx, rfl⟩)]
            simp
          · exact h4 hnd.2 k x e a hee
        · intro k hk
          rw [h5 k fun x hx => hk x (by simp [hx])]
          exact Dict.get?_set_ne _ _ (fun hh => hk x0 (by simp [hh]))
        · exact h6
      · cases h

theorem dictLoop_error {f : Val → R Val} {co : Key → R Key} {kvs : List (Key × Val)} {d : Data}
    {es : Errs} {e : Exc} (h : dictLoop f co kvs d es = .error e) :
    ∃ kx ∈ kvs, convEntry f co kx.1 kx.2 = .error e ∧ e.caught = false := by
  induction kvs generalizing d es with
  | nil => simp [dictLoop] at h
  | cons kx kvs ih =>
    obtain ⟨k0, x0⟩ := kx
    rw [dictLoop_cons] at h
    cases he : convEntry f co k0 x0 with
    | ok p =>
      rw [he] at h
      obtain ⟨kx, a, b⟩ := ih h
      exact ⟨kx, by simp [a], b⟩
    | error e0 =>
      rw [he] at h
      simp only [] at h
      split at h
      · obtain ⟨kx, a, b⟩ := ih h
        exact ⟨kx, by simp [a], b⟩
      · rename_i hc
        injection h with h; subst h
        exact ⟨(k0, x0), by simp, he, by simpa using hc⟩

/-- **C14.** Converting a mapping `kvs` (its keys are distinct) in a dict field, where an
entry converts as `entry` (value first, then key):
1. the conversion succeeds iff every entry converts, and then the result maps each
   key `k` to the value of the last entry whose key converts to `k`, and has no
   other keys;
2. otherwise, if no entry crashes, it fails with one compound error whose keys
   are exactly the original keys of the failing entries, each with its own error;
3. any other error is an entry's foreign exception.
A value that is not a mapping is refused with a `ConversionError`. -/
theorem C14_dict_valuewise (env : Env) (n : Nat) (ctx : Ctx) (named : Bool) (inner : Field)
    (coerce : Key → R Key) (o : FieldOpts) (v : Val) (hne : v.isEmpty = false)
    (hconv : ctx.conv = .imp) (entry : Key → Val → R (Key × Val))
    (hc : entry = convEntry (fieldConv env n ctx false inner) coerce)
    (run : R Val) (hrun : run = fieldConv env (n + 1) ctx named (.mk (.dict inner coerce) o) v) :
    (∀ kvs, v = .dict kvs → (kvs.map (·.1)).Nodup →
      ((∃ w, run = .ok w) ↔ ∀ kx ∈ kvs, ∃ p, entry kx.1 kx.2 = .ok p) ∧
      (∀ w, run = .ok w → ∃ d, w = .dict d ∧ Dict.Nodup d ∧
        ∀ k, Dict.get? d k = lastEntry entry k kvs) ∧
      (∀ es, run = .error (.compound es) →
        (∀ k, k ∈ Dict.keys es ↔ ∃ x e, (k, x) ∈ kvs ∧ entry k x = .error e) ∧
        ∀ k x e, (k, x) ∈ kvs → entry k x = .error e → Dict.get? es k = some e.tree) ∧
      (∀ e, run = .error e → (∃ es, e = .compound es) ∨
        ∃ kx ∈ kvs, entry kx.1 kx.2 = .error e ∧ e.caught = false)) ∧
    ((∀ kvs, v ≠ .dict kvs) → run = convErr "dict") := by
  refine ⟨?_, ?_⟩
  · rintro kvs rfl hnd
    have hr : run = dictConv (fieldConv env n ctx false inner) coerce kvs := by
      rw [hrun]
      simp only [fieldConv, fieldConvF, requiredFails, hne, Bool.and_false, Bool.false_and,
        Bool.false_eq_true, if_false, hconv, convertF, Field.ty_mk]
    unfold dictConv at hr
    rw [← show _ = entry from hc.symm]
    cases hl : dictLoop (fieldConv env n ctx false inner) coerce kvs [] [] with
    | error e =>
      rw [hl] at hr
      obtain ⟨kx, h1, h2, h3⟩ := dictLoop_error hl
      simp only [] at hr
      refine ⟨⟨?_, ?_⟩, ?_, ?_, ?_⟩
      · rintro ⟨w, h⟩; rw [hr] at h; cases h
      · intro h; obtain ⟨p, hp⟩ := h kx h1; rw [h2] at hp; cases hp
      · intro w h; rw [hr] at h; cases h
      · intro es h; rw [hr] at h; injection h with h; subst h; cases h3
      · intro e' h; rw [hr] at h; injection h with h; subst h
        exact Or.inr ⟨kx, h1, h2, h3⟩
    | ok p =>
      obtain ⟨d, es⟩ := p
      rw [hl] at hr
      simp only [] at hr
      obtain ⟨h1, h2, h3, h4, h5, h6⟩ := dictLoop_spec hl
      simp only [Dict.get?_nil, Option.or_none] at h1
      simp only [Dict.keys_nil, List.not_mem_nil, false_or] at h2
      cases es with
      | nil =>
        simp only [List.isEmpty_nil, if_true] at hr
        refine ⟨⟨fun _ kx hkx => ?_, fun _ => ⟨_, hr⟩⟩, ?_, ?_, ?_⟩
        · cases he : convEntry (fieldConv env n ctx false inner) coerce kx.1 kx.2 with
          | ok p => exact ⟨p, rfl⟩
          | error e => have := (h2 kx.1).2 ⟨kx.2, e, hkx, he⟩; cases this
        · intro w h; rw [hr] at h; injection h with h
          exact ⟨d, h.symm, h6 (by simp [Dict.Nodup]), h1⟩
        · intro es h; rw [hr] at h; cases h
        · intro e h; rw [hr] at h; cases h
      | cons a es =>
        simp only [List.isEmpty_cons, Bool.false_eq_true, if_false] at hr
        refine ⟨⟨?_, ?_⟩, ?_, ?_, ?_⟩
        · rintro ⟨w, h⟩; rw [hr] at h; cases h
        · intro h
          obtain ⟨x, e, h1, he⟩ := (h2 a.1).1 (by simp)
          obtain ⟨p, hp⟩ := h _ h1
          simp only [] at hp
          rw [he] at hp; cases hp
        · intro w h; rw [hr] at h; cases h
        · intro es' h; rw [hr] at h
          injection h with h
          injection h with h
          subst h
          exact ⟨h2, h4 hnd⟩
        · intro e h; rw [hr] at h
          injection h with h
          exact Or.inl ⟨_, h.symm⟩
  · intro h
    rw [hrun]
    simp only [fieldConv, fieldConvF, requiredFails, hne, Bool.and_false, Bool.false_and,
      Bool.false_eq_true, if_false, hconv, convertF, Field.ty_mk]

/-! ## C18 -/

/-- What a validator says about a value. -/
inductive Verdict
  | pass
  | fail (ms : List Msg)
  | stop (ms : List Msg)

/-- Validator `g` gives this verdict (it neither crashes nor raises anything but a
`ValidationError`). -/
def Gives (app v : Val) (g : Validator) : Verdict → Prop
  | .pass => g app v = .ok ()
  | .fail ms => g app v = .error (.field .valid ms)
  | .stop ms => g app v = .error (.field .stop ms)

/-- The messages of all failing validators, up to and including the first
`StopValidationError`. -/
def collected : List Verdict → List Msg
  | [] => []
  | .pass :: vs => collected vs
  | .fail ms :: vs => ms ++ collected vs
  | .stop ms :: _ => ms

/-- No validator failed. -/
def AllPass (vs : List Verdict) : Prop := ∀ v ∈ vs, v = .pass

theorem runValidators_spec {app v : Val} {gs : List Validator} {vs : List Verdict}
    (h : All2 (Gives app v) gs vs) :
    (AllPass vs → runValidators app v gs = .ok none) ∧
    (¬ AllPass vs → runValidators app v gs = .ok (some (collected vs))) := by
  induction h with
  | nil => exact ⟨fun _ => rfl, fun h => absurd (by simp [AllPass]) h⟩
  | @cons g vd gs vs hg hrest ih =>
    cases vd with
    | pass =>
      have hap : AllPass (.pass :: vs) ↔ AllPass vs := by simp [AllPass]
      simp only [Gives] at hg
      simp only [runValidators, hg, hap, collected]
      exact ih
    | fail ms =>
      simp only [Gives] at hg
      refine ⟨fun h => (by have := h _ (List.mem_cons_self ..); cases this), fun _ => ?_⟩
      simp only [runValidators, hg, collected]
      by_cases hp : AllPass vs
      · rw [ih.1 hp]
        have : collected vs = [] := by
          have hc : ∀ l : List Verdict, AllPass l → collected l = [] := by
            intro l
            induction l with
            | nil => intro _; rfl
            | cons x l ihl =>
              intro h
              have hx := h x (by simp)
              subst hx
              exact ihl fun y hy => h y (by simp [hy])
          exact hc vs hp
        simp [this]
      · rw [ih.2 hp]
    | stop ms =>
      simp only [Gives] at hg
      refine ⟨fun h => (by have := h _ (List.mem_cons_self ..); cases this), fun _ => ?_⟩
      simp only [runValidators, hg, collected]

/-- The validators that come with a type: those of a scalar type, and the check of the size of a list. -/
def ownValidators : FType → List Validator
  | .leaf l => l.validators
  | .list _ min max => [checkLength min max]
  | _ => []

/-- **C18, the built-in checks**: `choices` passes iff the value equals one of the choices (or there are none), and the size check of lists passes iff the
size is within the bounds; otherwise they fail with one message. -/
theorem C18_builtin_checks (app v : Val) (cs : Option (List Val)) (mn mx : Option Nat) :
    ((∀ l, cs = some l → ∃ c ∈ l, v.pyEq c = true) → Gives app v (checkChoices cs) .pass) ∧
    ((∃ l, cs = some l ∧ ∀ c ∈ l, v.pyEq c = false) → Gives app v (checkChoices cs) (.fail ["choices"])) ∧
    (∀ xs, v = .list xs →
      ((∀ m, mn = some m → m ≤ xs.length) → (∀ m, mx = some m → xs.length ≤ m) → Gives app v (checkLength mn mx) .pass) ∧
      ((∃ m, mn = some m ∧ xs.length < m) → Gives app v (checkLength mn mx) (.fail ["min_size"])) ∧
      ((∀ m, mn = some m → m ≤ xs.length) → (∃ m, mx = some m ∧ m < xs.length) → Gives app v (checkLength mn mx) (.fail ["max_size"]))) := by
  refine ⟨?_, ?_, ?_⟩
  · intro h
    cases cs with
    | none => rfl
    | some l =>
      have : Val.pyIn v l = true := by
        rw [Val.pyIn, List.any_eq_true]; exact h l rfl
      simp only [Gives, checkChoices, this, if_true]
  · rintro ⟨l, rfl, h⟩
    have : Val.pyIn v l = false := by
      rw [Val.pyIn, List.any_eq_false]; intro c hc; simp [h c hc]
    simp only [Gives, checkChoices, this, Bool.false_eq_true, if_false]; rfl
  · rintro xs rfl
    refine ⟨?_, ?_, ?_⟩
    · intro h1 h2
      have a : tooShort mn xs.length = false := by
        cases mn with
        | none => rfl
        | some m => simpa [tooShort] using h1 m rfl
      have b : tooLong mx xs.length = false := by
        cases mx with
        | none => rfl
        | some m => simpa [tooLong] using h2 m rfl
      simp [Gives, checkLength, pyLen, a, b]
    · rintro ⟨m, rfl, h⟩
      simp [Gives, checkLength, pyLen, tooShort, h]; rfl
    · rintro h1 ⟨m, rfl, h⟩
      have a : tooShort mn xs.length = false := by
        cases mn with
        | none => rfl
        | some m => simpa [tooShort] using h1 m rfl
      simp [Gives, checkLength, pyLen, tooLong, a, h]; rfl

/-- **C18.** Validating a value in a field: with `convert` (the default) the value `w` that it converts to is validated and returned; without, the
value `w = v` itself, after a trial conversion of compound values. The validators are those for `choices`, those of the type and those given by the user, in
this order; if their verdicts are `vs`, the value is accepted unchanged iff all pass; otherwise one `ValidationError` carries the messages of all failing
validators in order, up to and including the first that raised `StopValidationError`. -/
theorem C18_validators_all_run (env : Env) (n : Nat) (ctx : Ctx) (named : Bool) (f : Field) (v w : Val)
    (hconv : ctx.conv = .val) (hne : v.isEmpty = false)
    (hno : ∀ l, f.ty = .leaf l → l.override = none)
    (hw : (ctx.convert = true ∧ convertF (fieldConv env n) env ctx f v = .ok w) ∨
      (ctx.convert = false ∧ w = v ∧ ((∃ l, f.ty = .leaf l) ∨ ∃ w', convertF (fieldConv env n) env ctx f v = .ok w')))
    (v0 : Verdict) (v1 v2 vs : List Verdict) (h0 : Gives ctx.app w (checkChoices f.o.choices) v0)
    (h1 : All2 (Gives ctx.app w) (ownValidators f.ty) v1) (h2 : All2 (Gives ctx.app w) f.o.validators v2) (hvs : vs = v0 :: (v1 ++ v2)) :
    (AllPass vs → fieldConv env (n + 1) ctx named f v = .ok w) ∧
    (¬ AllPass vs →
      fieldConv env (n + 1) ctx named f v = .error (.field .valid (collected vs))) := by
  have hov : f.ty.override = none := by
    cases ht : f.ty with
    | leaf l => exact hno l ht
    | _ => rfl
  have hall : All2 (Gives ctx.app w) f.allValidators vs := by
    subst hvs
    have e : f.allValidators = checkChoices f.o.choices :: (ownValidators f.ty ++ f.o.validators) := by
      unfold Field.allValidators
      cases f.ty <;> rfl
    rw [e]
    exact .cons h0 (h1.append h2)
  have hrun : fieldConv env (n + 1) ctx named f v = finishValidation ctx.app w f.allValidators := by
    simp only [fieldConv, fieldConvF, requiredFails, hne, Bool.and_false, Bool.false_and,
      Bool.false_eq_true, if_false, hconv, validateF, hov]
    rcases hw with ⟨hcv, hw⟩ | ⟨hcv, rfl, hw⟩
    · simp only [hcv, if_true, hw]
    · simp only [hcv, Bool.false_eq_true, if_false]
      cases hcomp : f.ty.isCompound with
      | false => simp only [Bool.false_eq_true, if_false]
      | true =>
        simp only [if_true]
        rcases hw with ⟨l, hl⟩ | ⟨w', hw'⟩
        · rw [hl] at hcomp; cases hcomp
        · rw [hw']
  obtain ⟨h1, h2⟩ := runValidators_spec hall
  rw [hrun]
  unfold finishValidation
  exact ⟨fun h => by rw [h1 h], fun h => by rw [h2 h]⟩

/-! ## The hypotheses are met -/

/-- Items 1 and 2 of the list fail, and are reported under their indices. -/
example := (C13_list_elementwise Samples.env 3 Samples.ictx true (.mk (.model "Item") {}) none none {}
  (.list [.dict [(.str "qty", .int 1)], .dict [(.str "qty", .str "x")], .int 5]) rfl rfl _ rfl _ rfl).1 _ (.list _)
example : ∃ a b, fieldConv Samples.env 4 Samples.ictx true (.mk (.list (.mk (.model "Item") {}) none none) {})
    (.list [.dict [(.str "qty", .int 1)], .dict [(.str "qty", .str "x")], .int 5]) =
    .error (.compound [(.int 1, a), (.int 2, b)]) := ⟨_, _, rfl⟩
example := (C14_dict_valuewise Samples.env 3 Samples.ictx true Samples.intF (fun k => .ok k) {}
  (.dict [(.str "a", .int 1), (.str "b", .str "x")]) rfl rfl _ rfl _ rfl).1 _ rfl (by decide)
/-- A field with three more validators. -/
def Samples.checked : Field :=
  .mk (.leaf Samples.intLeaf) { validators := [fun _ _ => validErr "a", fun _ _ => .error (.field .stop ["b"]), fun _ _ => validErr "c"] }
/-- Several validators fail: all messages are reported. -/
example : fieldConv Samples.env 1 Samples.vctx true
    Samples.checked (.int (-1)) = .error (.field .valid ["neg", "a", "b"]) :=
  (C18_validators_all_run Samples.env 0 Samples.vctx true Samples.checked (.int (-1)) (.int (-1)) rfl rfl (by intro l h; cases h; rfl) (Or.inl ⟨rfl, rfl⟩)
    .pass [.fail ["neg"]] [.fail ["a"], .stop ["b"], .fail ["c"]] _ rfl (.cons rfl .nil) (.cons rfl (.cons rfl (.cons rfl .nil))) rfl).2
    (by intro h; have := h (.fail ["a"]) (by simp); cases this)

end Verif
