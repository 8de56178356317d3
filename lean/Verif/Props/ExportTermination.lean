import Verif.Core.Export
import Verif.Props.Builtin

/-!
# C96: exports terminate
-/
namespace Verif

/-! ## Specification vocabulary -/

/-- What an export reads from the value has nesting depth at most `n`: the items of lists, the values of dicts, the stored values of model instances and the values that their
calculated fields compute. -/
inductive Readable (env : Env) : Nat → Val → Prop
  | undef {n} : Readable env n .undef
  | none {n} : Readable env n .none
  | bool {n b} : Readable env n (.bool b)
  | int {n i} : Readable env n (.int i)
  | flt {n f} : Readable env n (.flt f)
  | str {n s} : Readable env n (.str s)
  | bytes {n bs} : Readable env n (.bytes bs)
  | uuid {n u} : Readable env n (.uuid u)
  | date {n d} : Readable env n (.date d)
  | datetime {n d} : Readable env n (.datetime d)
  | timedelta {n d} : Readable env n (.timedelta d)
  | decimal {n d} : Readable env n (.decimal d)
  | enum {n c m v} : Readable env n (.enum c m v)
  | obj {n o} : Readable env n (.obj o)
  | list {n xs} : (∀ x ∈ xs, Readable env n x) → Readable env (n + 1) (.list xs)
  | tuple {n xs} : (∀ x ∈ xs, Readable env n x) → Readable env (n + 1) (.tuple xs)
  | dict {n kvs} : (∀ kv ∈ kvs, Readable env n kv.2) → Readable env (n + 1) (.dict kvs)
  | inst {n k d} : (∀ kv ∈ d, Readable env n kv.2) →
      (∀ c, env.cls k = some c → ∀ fd ∈ c.fields, ∀ g, fd.fget = some g → ∀ w, g d = some w → Readable env n w) → Readable env (n + 1) (.inst k d)

mutual
/-- How deep lists and dicts are nested in a type; models count as leaves. -/
def FType.nest : FType → Nat
  | .leaf _ => 0
  | .list inner _ _ => inner.nest + 1
  | .dict inner _ => inner.nest + 1
  | .model _ => 0
  | .poly _ => 0
/-- How deep lists and dicts are nested in a field. -/
def Field.nest : Field → Nat
  | .mk t _ => t.nest
end

mutual
/-- The scalar types inside do not themselves exceed the recursion limit when they export. -/
def FType.Mild : FType → Prop
  | .leaf l => (∀ app v, Ends (l.toNative app v)) ∧ ∀ app v, Ends (l.toPrimitive app v)
  | .list inner _ _ => inner.Mild
  | .dict inner _ => inner.Mild
  | .model _ => True
  | .poly _ => True
/-- The scalar types inside do not themselves exceed the recursion limit when they export. -/
def Field.Mild : Field → Prop
  | .mk t _ => t.Mild
end

/-- The fields of the class are nested at most `T` deep, and mild. -/
def ClassDef.Mild (T : Nat) (c : ClassDef) : Prop := ∀ fd ∈ c.fields, fd.field.nest ≤ T ∧ fd.field.Mild

/-! ## Lemmas -/

theorem Readable.mono {env : Env} {n m : Nat} {v : Val} (h : Readable env n v) (hnm : n ≤ m) : Readable env m v := by
  induction h generalizing m with
  | list _ ih =>
    obtain ⟨m, rfl⟩ : ∃ k, m = k + 1 := ⟨m - 1, by omega⟩
    exact .list fun x hx => ih x hx (by omega)
  | tuple _ ih =>
    obtain ⟨m, rfl⟩ : ∃ k, m = k + 1 := ⟨m - 1, by omega⟩
    exact .tuple fun x hx => ih x hx (by omega)
  | dict _ ih =>
    obtain ⟨m, rfl⟩ : ∃ k, m = k + 1 := ⟨m - 1, by omega⟩
    exact .dict fun x hx => ih x hx (by omega)
  | inst _ _ ih ih2 =>
    obtain ⟨m, rfl⟩ : ∃ k, m = k + 1 := ⟨m - 1, by omega⟩
    exact .inst (fun x hx => ih x hx (by omega)) fun c hc fd hfd g hg w hw => ih2 c hc fd hfd g hg w hw (by omega)
  | undef => exact .undef
  | none => exact .none
  | bool => exact .bool
  | int => exact .int
  | flt => exact .flt
  | str => exact .str
  | bytes => exact .bytes
  | uuid => exact .uuid
  | date => exact .date
  | datetime => exact .datetime
  | timedelta => exact .timedelta
  | decimal => exact .decimal
  | enum => exact .enum
  | obj => exact .obj

theorem exportFields_ends {rec : ERec} {ctx : ECtx} {owner : Nat} {flt : Option RoleFn} {src : Src} :
    ∀ (fds : List FieldDef), (∀ fd ∈ fds, (src.read fd).isEmpty = false → Ends (rec owner fd.field (src.read fd))) → ∀ d, Ends (exportFields rec ctx owner flt src fds d) := by
  intro fds
  induction fds with
  | nil => intro _ d; exact ends_ok _
  | cons fd fds ih =>
    intro h d
    have ih := ih fun g hg => h g (List.mem_cons_of_mem _ hg)
    have h1 : Ends (exportField rec ctx owner flt src fd) := by
      have h0 := h fd (List.mem_cons_self ..)
      unfold exportField
      dsimp only
      split
      · exact ends_ok _
      · split
        · exact ends_ok _
        · cases hv : (src.read fd).isEmpty with
          | true => rw [if_pos rfl]; dsimp only; split <;> exact ends_ok _
          | false =>
            rw [if_neg (by simp)]
            have h0 := h0 hv
            cases hr : rec owner fd.field (src.read fd) with
            | error e => rw [hr] at h0; intro hh; cases hh; exact h0 rfl
            | ok w => dsimp only; split <;> exact ends_ok _
    rw [exportFields]
    cases hr : exportField rec ctx owner flt src fd with
    | error e => rw [hr] at h1; intro hh; cases hh; exact h1 rfl
    | ok o => cases o <;> exact ih _

theorem exportLoop_ends {rec : ERec} {ctx : ECtx} {c : ClassDef} {src : Src}
    (h : ∀ fd ∈ c.fields, (src.read fd).isEmpty = false → Ends (rec c.exportLevel fd.field (src.read fd))) : Ends (exportLoop rec ctx c src) := by
  unfold exportLoop
  split
  · intro hh; cases hh
  · exact exportFields_ends _ h _

theorem exportModel_ends {rec : ERec} {ctx : ECtx} {c : ClassDef} {src : Src}
    (h : ∀ fd ∈ c.fields, (src.read fd).isEmpty = false → Ends (rec c.exportLevel fd.field (src.read fd))) : Ends (exportModel rec ctx c src) := by
  have := exportLoop_ends (ctx := ctx) h
  unfold exportModel
  cases hr : exportLoop rec ctx c src with
  | error e => rw [hr] at this; intro hh; cases hh; exact this rfl
  | ok d => exact ends_ok _

theorem exportItems_ends {f : Val → R Val} {hide : Val → Bool} : ∀ {xs : List Val}, (∀ x ∈ xs, Ends (f x)) → Ends (exportItems f hide xs)
  | [], _ => ends_ok _
  | x :: xs, h => by
    have h1 := h x (List.mem_cons_self ..)
    have h2 := exportItems_ends (hide := hide) fun y hy => h y (List.mem_cons_of_mem _ hy)
    rw [exportItems]
    cases hr : f x with
    | error e => rw [hr] at h1; intro hh; cases hh; exact h1 rfl
    | ok y =>
      dsimp only
      cases hs : exportItems f hide xs with
      | error e => rw [hs] at h2; intro hh; cases hh; exact h2 rfl
      | ok ys => dsimp only; split <;> exact ends_ok _

theorem exportPairs_ends {f : Val → R Val} {hide : Val → Bool} : ∀ {xs : List (Key × Val)}, (∀ x ∈ xs, Ends (f x.2)) → Ends (exportPairs f hide xs)
  | [], _ => ends_ok _
  | (k, x) :: xs, h => by
    have h1 := h (k, x) (List.mem_cons_self ..)
    have h2 := exportPairs_ends (hide := hide) fun y hy => h y (List.mem_cons_of_mem _ hy)
    rw [exportPairs]
    cases hr : f x with
    | error e => rw [hr] at h1; intro hh; cases hh; exact h1 rfl
    | ok y =>
      dsimp only
      cases hs : exportPairs f hide xs with
      | error e => rw [hs] at h2; intro hh; cases hh; exact h2 rfl
      | ok ys => dsimp only; split <;> exact ends_ok _

theorem iterItems_readable {env : Env} {d : Nat} {v : Val} (h : Readable env d v) {xs : List Val} (hx : iterItems env v = some xs) : ∀ x ∈ xs, Readable env d x := by
  have hkey : ∀ k : Key, Readable env d (match k with | .str s => Val.str s | .int i => .int i) := by
    intro k; cases k; exact .str; exact .int
  intro x hxs
  cases h with
  | list h => cases hx; exact (h x hxs).mono (Nat.le_succ _)
  | tuple h => cases hx; exact (h x hxs).mono (Nat.le_succ _)
  | bytes => cases hx; obtain ⟨b, -, rfl⟩ := List.mem_map.1 hxs; exact .int
  | str => cases hx; obtain ⟨b, -, rfl⟩ := List.mem_map.1 hxs; exact .str
  | dict h => cases hx; obtain ⟨kv, -, rfl⟩ := List.mem_map.1 hxs; exact hkey kv.1
  | inst h h2 => cases hx; obtain ⟨kv, -, rfl⟩ := List.mem_map.1 hxs; exact hkey kv.1
  | _ => cases hx

theorem iterPairs_readable {env : Env} {d : Nat} {v : Val} (h : Readable env d v) {xs : List (Key × Val)} (hx : iterPairs env v = some xs) : ∀ kv ∈ xs, Readable env d kv.2 := by
  intro kv hkv
  cases h with
  | dict h => cases hx; exact (h kv hkv).mono (Nat.le_succ _)
  | @inst n k dd h h2 =>
    cases hx
    obtain ⟨kv', -, rfl⟩ := List.mem_map.1 hkv
    dsimp only
    cases hg : Dict.get? dd kv'.1 with
    | none => exact .undef
    | some w => exact (h _ (Dict.mem_of_get? hg)).mono (Nat.le_succ _)
  | _ => cases hx

theorem rawValue_readable {env : Env} {d : Nat} {data : Data} (h : ∀ kv ∈ data, Readable env d kv.2) (name : String) : Readable env d (rawValue data name) := by
  unfold rawValue
  cases hg : Dict.get? data (.str name) with
  | none => exact .undef
  | some w => exact h _ (Dict.mem_of_get? hg)

/-- An instance presents values that are one level less deep. -/
theorem inst_readable {env : Env} {d : Nat} {k : String} {data : Data} (h : Readable env d (.inst k data)) {c : ClassDef} (hc : env.cls k = some c) :
    ∃ n, d = n + 1 ∧ ∀ fd ∈ c.fields, Readable env n ((Src.inst data).read fd) := by
  cases h with
  | @inst n _ _ h h2 =>
    refine ⟨n, rfl, fun fd hfd => ?_⟩
    unfold Src.read
    dsimp only
    cases hg : fd.fget with
    | none => exact rawValue_readable h _
    | some g =>
      dsimp only
      cases hw : g data with
      | none => exact .undef
      | some w => exact h2 c hc fd hfd g hg w hw

theorem fieldExport_ends {T : Nat} {env : Env} {ctx : ECtx} (henv : ∀ k c, env.cls k = some c → c.Mild T) :
    ∀ (n d : Nat) (v : Val), Readable env d v → ∀ (owner : Nat) (f : Field), f.Mild → f.nest ≤ T → d * (T + 1) + f.nest + 1 ≤ n → Ends (fieldExport env ctx n owner f v) := by
  intro n
  induction n with
  | zero => intro d v _ owner f _ _ hn; omega
  | succ n ih =>
    intro d v hv owner f hf hT hn
    have hmodel : ∀ (c : ClassDef), c.Mild T → ∀ src : Src, (∀ fd ∈ c.fields, (src.read fd).isEmpty = false → ∃ k, d = k + 1 ∧ Readable env k (src.read fd)) →
        Ends (exportModel (fieldExport env ctx n) ctx c src) := by
      intro c hc src hsrc
      refine exportModel_ends fun fd hfd he => ?_
      obtain ⟨k, rfl, hr⟩ := hsrc fd hfd he
      refine ih k _ hr _ _ (hc fd hfd).2 (hc fd hfd).1 ?_
      have := (hc fd hfd).1
      rw [Nat.add_mul] at hn
      omega
    have hinst : ∀ k data c, v = .inst k data → env.cls k = some c → Ends (exportModel (fieldExport env ctx n) ctx c (.inst data)) := by
      intro k data c he hc
      subst he
      obtain ⟨m, rfl, hr⟩ := inst_readable hv hc
      exact hmodel c (henv k c hc) _ fun fd hfd _ => ⟨m, rfl, hr fd hfd⟩
    rw [fieldExport]
    obtain ⟨t, o⟩ := f
    cases t with
    | leaf l =>
      have h : (∀ app v, Ends (l.toNative app v)) ∧ ∀ app v, Ends (l.toPrimitive app v) := hf
      unfold exportF
      dsimp only [Field.ty_mk]
      cases ctx.fmt
      · exact h.1 _ _
      · exact h.2 _ _
    | list inner mn mx =>
      have hf' : inner.Mild := hf
      have hnest : (Field.mk (.list inner mn mx) o).nest = inner.nest + 1 := rfl
      unfold exportF
      dsimp only [Field.ty_mk]
      split
      · exact ends_ok _
      · cases hi : iterItems env v with
        | none => intro hh; cases hh
        | some xs =>
          have := exportItems_ends (f := fieldExport env ctx n owner inner) (hide := hiddenItem (exportLevelOf ctx owner inner) inner) (xs := xs)
            fun x hx => ih d x (iterItems_readable hv hi x hx) owner inner hf' (by omega) (by omega)
          dsimp only
          cases hr : exportItems (fieldExport env ctx n owner inner) (hiddenItem (exportLevelOf ctx owner inner) inner) xs with
          | error e => rw [hr] at this; intro hh; cases hh; exact this rfl
          | ok ys => exact ends_ok _
    | dict inner co =>
      have hf' : inner.Mild := hf
      have hnest : (Field.mk (.dict inner co) o).nest = inner.nest + 1 := rfl
      unfold exportF
      dsimp only [Field.ty_mk]
      split
      · exact ends_ok _
      · cases hi : iterPairs env v with
        | none => intro hh; cases hh
        | some xs =>
          have := exportPairs_ends (f := fieldExport env ctx n owner inner) (hide := hiddenItem (exportLevelOf ctx owner inner) inner) (xs := xs)
            fun x hx => ih d x.2 (iterPairs_readable hv hi x hx) owner inner hf' (by omega) (by omega)
          dsimp only
          cases hr : exportPairs (fieldExport env ctx n owner inner) (hiddenItem (exportLevelOf ctx owner inner) inner) xs with
          | error e => rw [hr] at this; intro hh; cases hh; exact this rfl
          | ok ys => exact ends_ok _
    | model cls =>
      unfold exportF
      dsimp only [Field.ty_mk]
      split
      · split
        · rename_i c hc; exact hinst _ _ c rfl hc
        · intro hh; cases hh
      · split
        · rename_i data _ c hc
          refine hmodel c (henv _ c hc) _ fun fd _ _ => ?_
          cases hv with
          | @dict m _ h => exact ⟨m, rfl, rawValue_readable h _⟩
        · intro hh; cases hh
      · split
        · rename_i c hc
          exact hmodel c (henv _ c hc) _ fun fd _ he => by cases he
        · intro hh; cases hh
    | poly p =>
      unfold exportF
      dsimp only [Field.ty_mk]
      split
      · split
        · split
          · rename_i c hc; exact hinst _ _ c rfl hc
          · intro hh; cases hh
        · intro hh; cases hh
      · intro hh; cases hh

/-! ## Theorems -/

/-- **C96, termination**: exporting data of depth `d` needs no more than `(d + 1) (T + 1)` nested calls, for every table of classes, however recursive, whose fields nest lists and
dicts at most `T` deep; so it ends, with a result or an ordinary exception. -/
theorem C96_export_terminates (T : Nat) (env : Env) (henv : ∀ k c, env.cls k = some c → c.Mild T) (ctx : ECtx) (c : ClassDef) (hc : c.Mild T) (src : Src) (d : Nat)
    (hsrc : ∀ fd ∈ c.fields, Readable env d (src.read fd)) (n : Nat) (hn : (d + 1) * (T + 1) ≤ n) : Ends (runExport env n ctx c src) := by
  refine exportLoop_ends fun fd hfd _ => fieldExport_ends henv n d _ (hsrc fd hfd) _ _ (hc fd hfd).2 (hc fd hfd).1 ?_
  have := (hc fd hfd).1
  rw [Nat.add_mul] at hn
  omega

/-! ## More stack changes nothing -/

/-- If the first computation stays within the recursion limit, the second has the same outcome. -/
def StackLe (r r' : R α) : Prop := Ends r → r' = r

theorem StackLe.refl (r : R α) : StackLe r r := fun _ => rfl

theorem StackLe.error {r' : R α} {e : Exc} (h : StackLe (.error e) r') : (∀ s : R β, StackLe (.error e) s) ∨ r' = .error e := by
  by_cases he : e = .fuel
  · subst he; exact .inl fun _ h => absurd rfl h
  · exact .inr (h fun hh => he (by cases hh; rfl))

theorem exportField_stack {rec rec' : ERec} {ctx : ECtx} {owner : Nat} {flt : Option RoleFn} {src : Src} (h : ∀ o f v, StackLe (rec o f v) (rec' o f v)) (fd : FieldDef) :
    StackLe (exportField rec ctx owner flt src fd) (exportField rec' ctx owner flt src fd) := by
  unfold exportField
  dsimp only
  split
  · exact .refl _
  · split
    · exact .refl _
    · by_cases he : (src.read fd).isEmpty = true
      · rw [if_pos he, if_pos he]; exact .refl _
      · rw [if_neg he, if_neg he]
        have h0 := h owner fd.field (src.read fd)
        cases hr : rec owner fd.field (src.read fd) with
        | error e =>
          rw [hr] at h0
          rcases h0.error with h1 | h1
          · exact h1 _
          · rw [h1]; exact .refl _
        | ok w =>
          rw [hr] at h0
          rw [h0 (ends_ok _)]; exact .refl _

theorem exportFields_stack {rec rec' : ERec} {ctx : ECtx} {owner : Nat} {flt : Option RoleFn} {src : Src} (h : ∀ o f v, StackLe (rec o f v) (rec' o f v)) :
    ∀ fds d, StackLe (exportFields rec ctx owner flt src fds d) (exportFields rec' ctx owner flt src fds d) := by
  intro fds
  induction fds with
  | nil => intro d; exact .refl _
  | cons fd fds ih =>
    intro d
    have h0 := exportField_stack (ctx := ctx) (owner := owner) (flt := flt) (src := src) h fd
    rw [exportFields, exportFields]
    cases hr : exportField rec ctx owner flt src fd with
    | error e =>
      rw [hr] at h0
      rcases h0.error with h1 | h1
      · exact h1 _
      · rw [h1]; exact .refl _
    | ok o =>
      rw [hr] at h0
      rw [h0 (ends_ok _)]
      cases o <;> exact ih _

theorem exportLoop_stack {rec rec' : ERec} (h : ∀ o f v, StackLe (rec o f v) (rec' o f v)) (ctx : ECtx) (c : ClassDef) (src : Src) :
    StackLe (exportLoop rec ctx c src) (exportLoop rec' ctx c src) := by
  unfold exportLoop
  split
  · exact .refl _
  · exact exportFields_stack h _ _

theorem exportModel_stack {rec rec' : ERec} (h : ∀ o f v, StackLe (rec o f v) (rec' o f v)) (ctx : ECtx) (c : ClassDef) (src : Src) :
    StackLe (exportModel rec ctx c src) (exportModel rec' ctx c src) := by
  have h0 := exportLoop_stack h ctx c src
  unfold exportModel
  cases hr : exportLoop rec ctx c src with
  | error e =>
    rw [hr] at h0
    rcases h0.error with h1 | h1
    · exact h1 _
    · rw [h1]; exact .refl _
  | ok d => rw [hr] at h0; rw [h0 (ends_ok _)]; exact .refl _

theorem exportItems_stack {f g : Val → R Val} {hide : Val → Bool} (h : ∀ v, StackLe (f v) (g v)) : ∀ xs, StackLe (exportItems f hide xs) (exportItems g hide xs)
  | [] => .refl _
  | x :: xs => by
    have h0 := h x
    have h2 := exportItems_stack (hide := hide) h xs
    rw [exportItems, exportItems]
    cases hr : f x with
    | error e =>
      rw [hr] at h0
      rcases h0.error with h1 | h1
      · exact h1 _
      · rw [h1]; exact .refl _
    | ok y =>
      rw [hr] at h0
      rw [h0 (ends_ok _)]
      dsimp only
      cases hs : exportItems f hide xs with
      | error e =>
        rw [hs] at h2
        rcases h2.error with h1 | h1
        · exact h1 _
        · rw [h1]; exact .refl _
      | ok ys => rw [hs] at h2; rw [h2 (ends_ok _)]; exact .refl _

theorem exportPairs_stack {f g : Val → R Val} {hide : Val → Bool} (h : ∀ v, StackLe (f v) (g v)) : ∀ xs, StackLe (exportPairs f hide xs) (exportPairs g hide xs)
  | [] => .refl _
  | (k, x) :: xs => by
    have h0 := h x
    have h2 := exportPairs_stack (hide := hide) h xs
    rw [exportPairs, exportPairs]
    cases hr : f x with
    | error e =>
      rw [hr] at h0
      rcases h0.error with h1 | h1
      · exact h1 _
      · rw [h1]; exact .refl _
    | ok y =>
      rw [hr] at h0
      rw [h0 (ends_ok _)]
      dsimp only
      cases hs : exportPairs f hide xs with
      | error e =>
        rw [hs] at h2
        rcases h2.error with h1 | h1
        · exact h1 _
        · rw [h1]; exact .refl _
      | ok ys => rw [hs] at h2; rw [h2 (ends_ok _)]; exact .refl _

theorem exportF_stack {rec rec' : ERec} (env : Env) (ctx : ECtx) (h : ∀ o f v, StackLe (rec o f v) (rec' o f v)) (owner : Nat) (f : Field) (v : Val) :
    StackLe (exportF rec env ctx owner f v) (exportF rec' env ctx owner f v) := by
  unfold exportF
  dsimp only
  split
  · exact .refl _
  · rename_i inner _ _ _
    split
    · exact .refl _
    · split
      · exact .refl _
      · rename_i xs _
        have h0 := exportItems_stack (hide := hiddenItem (exportLevelOf ctx owner inner) inner) (h owner inner) xs
        cases hr : exportItems (rec owner inner) (hiddenItem (exportLevelOf ctx owner inner) inner) xs with
        | error e =>
          rw [hr] at h0
          rcases h0.error with h1 | h1
          · exact h1 _
          · rw [h1]; exact .refl _
        | ok ys => rw [hr] at h0; rw [h0 (ends_ok _)]; exact .refl _
  · rename_i inner _ _
    split
    · exact .refl _
    · split
      · exact .refl _
      · rename_i xs _
        have h0 := exportPairs_stack (hide := hiddenItem (exportLevelOf ctx owner inner) inner) (h owner inner) xs
        cases hr : exportPairs (rec owner inner) (hiddenItem (exportLevelOf ctx owner inner) inner) xs with
        | error e =>
          rw [hr] at h0
          rcases h0.error with h1 | h1
          · exact h1 _
          · rw [h1]; exact .refl _
        | ok ys => rw [hr] at h0; rw [h0 (ends_ok _)]; exact .refl _
  · split <;> split <;> first | exact .refl _ | exact exportModel_stack h _ _ _
  · split
    · split
      · split <;> first | exact .refl _ | exact exportModel_stack h _ _ _
      · exact .refl _
    · exact .refl _

theorem fieldExport_stack (env : Env) (ctx : ECtx) : ∀ {n m : Nat}, n ≤ m → ∀ o f v, StackLe (fieldExport env ctx n o f v) (fieldExport env ctx m o f v)
  | 0, _, _ => fun _ _ _ h => absurd rfl h
  | n + 1, 0, h => by omega
  | n + 1, m + 1, h => exportF_stack env ctx (fieldExport_stack env ctx (Nat.le_of_succ_le_succ h))

/-- **C96, more stack does not change the outcome**: an export that ends within recursion limit `n` has the same outcome with any larger limit. -/
theorem C96_outcome_independent_of_stack (env : Env) (n m : Nat) (h : n ≤ m) (ctx : ECtx) (c : ClassDef) (src : Src) (he : Ends (runExport env n ctx c src)) :
    runExport env m ctx c src = runExport env n ctx c src :=
  exportLoop_stack (fieldExport_stack env ctx h) ctx c src he

/-- **C96, data has a depth**: without calculated fields, every value has a finite depth, so that `C96_export_terminates` applies. -/
theorem C96_depth_exists (env : Env) (hg : ∀ k c, env.cls k = some c → ∀ fd ∈ c.fields, fd.fget = none) (v : Val) : ∃ n, Readable env n v := by
  apply Val.rec (motive_1 := fun v => ∃ n, Readable env n v)
    (motive_2 := fun xs => ∃ n, ∀ x ∈ xs, Readable env n x)
    (motive_3 := fun kvs => ∃ n, ∀ kv ∈ kvs, Readable env n kv.2)
    (motive_4 := fun kv => ∃ n, Readable env n kv.2)
  case undef => exact ⟨0, .undef⟩
  case none => exact ⟨0, .none⟩
  case bool => intro _; exact ⟨0, .bool⟩
  case int => intro _; exact ⟨0, .int⟩
  case flt => intro _; exact ⟨0, .flt⟩
  case str => intro _; exact ⟨0, .str⟩
  case bytes => intro _; exact ⟨0, .bytes⟩
  case list => rintro xs ⟨n, h⟩; exact ⟨_, .list h⟩
  case tuple => rintro xs ⟨n, h⟩; exact ⟨_, .tuple h⟩
  case dict => rintro xs ⟨n, h⟩; exact ⟨_, .dict h⟩
  case inst =>
    rintro k d ⟨n, h⟩
    refine ⟨_, .inst (n := n) h fun c hc fd hfd g hg' => ?_⟩
    rw [hg k c hc fd hfd] at hg'; cases hg'
  case uuid => intro _; exact ⟨0, .uuid⟩
  case date => intro _; exact ⟨0, .date⟩
  case datetime => intro _; exact ⟨0, .datetime⟩
  case timedelta => intro _; exact ⟨0, .timedelta⟩
  case decimal => intro _; exact ⟨0, .decimal⟩
  case enum => intro _ _ _ _; exact ⟨0, .enum⟩
  case obj => intro _; exact ⟨0, .obj⟩
  case nil => exact ⟨0, by simp⟩
  case cons =>
    rintro x xs ⟨n, h⟩ ⟨m, hm⟩
    refine ⟨n + m, fun y hy => ?_⟩
    rcases List.mem_cons.1 hy with rfl | hy
    · exact h.mono (by omega)
    · exact (hm y hy).mono (by omega)
  case nil => exact ⟨0, by simp⟩
  case cons =>
    rintro x xs ⟨n, h⟩ ⟨m, hm⟩
    refine ⟨n + m, fun y hy => ?_⟩
    rcases List.mem_cons.1 hy with rfl | hy
    · exact h.mono (by omega)
    · exact (hm y hy).mono (by omega)
  case mk => intro k v h; exact h

/-- **C96, every export ends**: with classes that have no calculated fields and nest lists and dicts at most `T` deep, every export of every instance, however large, ends with a
result or an ordinary exception, and all sufficiently high recursion limits give the same outcome. -/
theorem C96_every_export_ends (T : Nat) (env : Env) (henv : ∀ k c, env.cls k = some c → c.Mild T) (hg : ∀ k c, env.cls k = some c → ∀ fd ∈ c.fields, fd.fget = none)
    (k : String) (c : ClassDef) (hc : env.cls k = some c) (d : Data) (ctx : ECtx) :
    ∃ r, Ends r ∧ ∃ limit, ∀ n, limit ≤ n → runExport env n ctx c (.inst d) = r := by
  obtain ⟨m, hm⟩ := C96_depth_exists env hg (.inst k d)
  obtain ⟨m, rfl, hr⟩ := inst_readable hm hc
  have he := C96_export_terminates T env henv ctx c (henv k c hc) (.inst d) m hr _ (Nat.le_refl _)
  exact ⟨_, he, _, fun n hn => C96_outcome_independent_of_stack env _ n hn ctx c _ he⟩

/-! ## Built-in types -/

namespace Types
open Py

theorem scalar_primitive_ends {l : Leaf} (hl : Scalar l) (app v : Val) : Ends (l.toPrimitive app v) := by
  cases hl with
  | timestamp =>
    intro h
    change tsPrimitive v = _ at h
    cases v with
    | datetime t =>
      have := toUTC_ends t
      change (match toUTC t with | .ok t => .ok (.flt (totalSeconds (t.localUs - epochUs))) | .error e => .error e) = (.error .fuel : R Val) at h
      cases hu : toUTC t with
      | ok x => rw [hu] at h; cases h
      | error e => rw [hu] at h this; cases h; exact this rfl
    | _ => cases h
  | multi =>
    have hf : ∀ (d : List (Key × Val)) ls, Ends (findLocale d ls) := by
      intro d ls
      induction ls with
      | nil => exact convErr_ends _
      | cons l ls ih =>
        unfold findLocale
        split
        · intro h; cases h
        · split
          · split
            · exact ends_ok _
            · exact ih
          · exact ih
    have ht : ∀ x, Ends (localizedText x) := by
      intro x
      cases x with
      | bytes bs =>
        unfold localizedText
        dsimp only
        split
        · exact ends_ok _
        · intro h; cases h
      | _ => intro h; cases h
    change Ends (multiPrimitive _ app v)
    unfold multiPrimitive
    split
    · exact ends_ok _
    · split
      · split
        · exact convErr_ends _
        · split
          · rename_i e he; intro h; cases h; exact hf _ _ he
          · exact ht _
      · intro h; cases h
    · intro h; cases h
  | datetime =>
    intro h
    change dtPrimitive v = _ at h
    unfold dtPrimitive at h
    split at h
    · split at h <;> cases h
    · cases h
  | _ => intro h; cases v <;> cases h

/-- **C96 for built-in types**: a field of a built-in type, or of lists and dicts of one, does not exceed the recursion limit by itself when it is exported. -/
theorem C96_builtin_types (l : Leaf) (hl : BuiltInTame l) (o : FieldOpts) : (Field.mk (.leaf l) o).Mild := by
  refine ⟨(C22_builtin_types l hl).1, ?_⟩
  induction hl with
  | scalar hs => exact scalar_primitive_ends hs
  | @union ms res hm hv ih =>
    intro app v
    have h0 := (C22_builtin_types _ (.union (ms := ms) res hm hv)).1 app v
    change Ends (unionPrimitive app v (unionResolve res (unionMembers ms) app v))
    change Ends (unionNative (unionResolve res (unionMembers ms) app v)) at h0
    cases hr : unionResolve res (unionMembers ms) app v with
    | error e => rw [hr] at h0; exact h0
    | ok q => exact ih q.1 (mem_unionMembers (unionResolve_mem hr).1) app v

end Types

/-! ## The excluded case -/

/-- A model with a calculated field that returns a new instance of the same model. -/
def mirrorClass : ClassDef := { name := "A", fields := [{ name := "a", field := .mk (.model "A") {}, fget := some fun _ => some (.inst "A" []) }] }
/-- The table of classes of `mirrorClass`. -/
def mirrorEnv : Env := { cls := fun k => if k = "A" then some mirrorClass else none, isSub := (· == ·), subs := fun _ => [] }

/-- **C96, the excluded case**: the data has depth one, but a calculated field that creates a new instance of its own model makes the export endless, whatever the recursion limit. -/
theorem C96_counterexample_getter (n : Nat) : runExport mirrorEnv n {} mirrorClass (.inst []) = .error .fuel := by
  induction n with
  | zero => rfl
  | succ n ih =>
    have h : fieldExport mirrorEnv {} (n + 1) DEFAULT (.mk (.model "A") {}) (.inst "A" []) = .error .fuel := by
      show exportModel (fieldExport mirrorEnv {} n) {} mirrorClass (.inst []) = .error .fuel
      unfold exportModel
      have : exportLoop (fieldExport mirrorEnv {} n) {} mirrorClass (.inst []) = .error .fuel := ih
      rw [this]
    show exportFields (fieldExport mirrorEnv {} (n + 1)) {} DEFAULT none (.inst []) mirrorClass.fields [] = _
    unfold mirrorClass
    rw [exportFields]
    have : ∀ rec : ERec, rec DEFAULT (.mk (.model "A") {}) (.inst "A" []) = .error .fuel →
        exportField rec {} DEFAULT none (.inst []) { name := "a", field := .mk (.model "A") {}, fget := some fun _ => some (.inst "A" []) } = .error .fuel := by
      intro rec hr
      have e : ∀ r : R Val, r = .error .fuel → (match r with | .error e => .error e | .ok w => if hidden DEFAULT (.mk (.model "A") {}) w then .ok none else .ok (some (nullify w))) = (.error .fuel : R (Option Val)) := by
        intro r h; rw [h]
      exact e _ hr
    rw [this _ h]

/-! ## The hypotheses are met -/

theorem samples_mild (k : String) (c : ClassDef) (h : Samples.env.cls k = some c) : c.Mild 1 := by
  have hi : (∀ app v, Ends (Samples.intLeaf.toNative app v)) ∧ ∀ app v, Ends (Samples.intLeaf.toPrimitive app v) :=
    ⟨fun _ v h => (by cases v <;> cases h), fun _ _ h => (by cases h)⟩
  have hs : (∀ app v, Ends (Samples.strLeaf.toNative app v)) ∧ ∀ app v, Ends (Samples.strLeaf.toPrimitive app v) :=
    ⟨fun _ v h => (by cases v <;> cases h), fun _ _ h => (by cases h)⟩
  rcases Samples.env_cls h with ⟨-, rfl⟩ | ⟨-, rfl⟩
  · exact Samples.item_fields ⟨by decide, hi⟩ ⟨by decide, hs⟩
  · exact Samples.order_fields ⟨by decide, hi⟩ ⟨by decide, trivial⟩ ⟨by decide, hi⟩ ⟨by decide, hs⟩ ⟨by decide, trivial⟩

example := C96_every_export_ends 1 Samples.env samples_mild
  (Samples.env_classes (Samples.item_fields rfl rfl) (Samples.order_fields rfl rfl rfl rfl rfl)) "Order" Samples.order rfl Samples.goodData {}
example := C96_depth_exists Samples.env (Samples.env_classes (Samples.item_fields rfl rfl) (Samples.order_fields rfl rfl rfl rfl rfl)) (.inst "Order" Samples.goodData)
example (n : Nat) (h : 8 ≤ n) := C96_export_terminates 1 Samples.env samples_mild {} Samples.item (samples_mild "Item" _ rfl) (.inst [(.str "qty", .list [.list [.int 1]])]) 3
  (Samples.item_fields (Readable.mono (n := 2) (.list (by simp; exact .list (n := 0) (by simp; exact .int))) (by omega)) .undef) n h
example := C96_outcome_independent_of_stack Samples.env 5 100 (by decide) {} Samples.order (.inst Samples.goodData) (by intro h; cases h)
example := Types.C96_builtin_types (Types.unionType [⟨"IntType", Types.intType none none false, {}⟩] none) (.union none (by simp; exact .scalar (.int _ _ _)) (by simp)) {}

end Verif
