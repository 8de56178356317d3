import Verif.Core.Export
import Verif.Core.ImportLemmas
import Verif.Spec

/-! # Helper lemmas about the export loop -/
namespace Verif

/-- Per-field results collected as entries. -/
def exportOuts (g : FieldDef → R (Option Val)) : List FieldDef → R (List (Key × Val))
  | [] => .ok []
  | fd :: fds =>
    match g fd with
    | .error e => .error e
    | .ok o =>
      match exportOuts g fds with
      | .error e => .error e
      | .ok kvs =>
        match o with
        | none => .ok kvs
        | some w => .ok ((.str fd.extName, w) :: kvs)

theorem exportFields_eq (rec : ERec) (ctx : ECtx) (owner : Nat) (flt : Option RoleFn) (src : Src)
    (fds : List FieldDef) (d : Data) :
    exportFields rec ctx owner flt src fds d =
      match exportOuts (exportField rec ctx owner flt src) fds with
      | .error e => .error e
      | .ok kvs => .ok (d.update kvs) := by
  induction fds generalizing d with
  | nil => rfl
  | cons fd fds ih =>
    simp only [exportFields, exportOuts]
    cases exportField rec ctx owner flt src fd with
    | error e => rfl
    | ok o =>
      cases o with
      | none =>
        simp only [ih]
        cases exportOuts (exportField rec ctx owner flt src) fds <;> rfl
      | some w =>
        simp only [ih]
        cases exportOuts (exportField rec ctx owner flt src) fds <;> rfl

/-- The entry a field contributes. -/
def entryOf (fd : FieldDef) : Option Val → List (Key × Val)
  | none => []
  | some w => [(.str fd.extName, w)]

theorem exportOuts_ok {g : FieldDef → R (Option Val)} {fds : List FieldDef} {kvs : List (Key × Val)} :
    exportOuts g fds = .ok kvs ↔
      ∃ f : FieldDef → Option Val, (∀ fd ∈ fds, g fd = .ok (f fd)) ∧
        kvs = fds.flatMap fun fd => entryOf fd (f fd) := by
  constructor
  · intro h
    refine ⟨fun fd => match g fd with | .ok o => o | .error _ => none, ?_, ?_⟩
    · induction fds generalizing kvs with
      | nil => simp
      | cons fd fds ih =>
        simp only [exportOuts] at h
        split at h
        · cases h
        · rename_i o ho
          split at h
          · cases h
          · rename_i kvs' hk
            intro fd' hfd'
            rcases List.mem_cons.1 hfd' with rfl | hm
            · simp only [ho]
            · exact ih hk _ hm
    · induction fds generalizing kvs with
      | nil => simp [exportOuts] at h; simp [h]
      | cons fd fds ih =>
        simp only [exportOuts] at h
        split at h
        · cases h
        · rename_i o ho
          split at h
          · cases h
          · rename_i kvs' hk
            have := ih hk
            simp only [List.flatMap_cons, ho]
            cases o with
            | none => simp only [Except.ok.injEq] at h; rw [← h]; simpa [entryOf] using this
            | some w =>
              simp only [Except.ok.injEq] at h
              rw [← h, this]; rfl
  · rintro ⟨f, hf, rfl⟩
    induction fds with
    | nil => rfl
    | cons fd fds ih =>
      simp only [exportOuts, hf fd (by simp), ih (fun x hx => hf x (by simp [hx])), List.flatMap_cons]
      cases f fd <;> rfl

theorem exportOuts_error {g : FieldDef → R (Option Val)} {fds : List FieldDef} {e : Exc}
    (h : exportOuts g fds = .error e) : ∃ fd ∈ fds, g fd = .error e := by
  induction fds with
  | nil => cases h
  | cons fd fds ih =>
    simp only [exportOuts] at h
    split at h
    · rename_i e' he; injection h with h; subst h; exact ⟨fd, by simp, he⟩
    · split at h
      · rename_i e' he
        injection h with h; subst h
        obtain ⟨x, hx, hg⟩ := ih he
        exact ⟨x, by simp [hx], hg⟩
      · split at h <;> cases h

theorem update_fresh {V : Type} (d kvs : Dict Key V) (h : Dict.Nodup (d ++ kvs)) :
    d.update kvs = d ++ kvs := by
  induction kvs generalizing d with
  | nil => simp
  | cons kv kvs ih =>
    rw [Dict.update_cons]
    have hset : Dict.set d kv.1 kv.2 = d ++ [kv] := by
      have hn : kv.1 ∉ Dict.keys d := by
        intro hk
        unfold Dict.Nodup Dict.keys at h
        rw [List.map_append, List.nodup_append] at h
        exact h.2.2 _ hk _ (by simp) rfl
      clear h ih
      induction d with
      | nil => rfl
      | cons a d ihd =>
        simp only [Dict.keys_cons, List.mem_cons, not_or] at hn
        show Dict.set (a :: d) kv.1 kv.2 = _
        obtain ⟨ak, av⟩ := a
        simp only [Dict.set]
        rw [if_neg (fun h => hn.1 h.symm), ihd hn.2]
        rfl
    rw [hset, ih]
    · simp
    · simpa using h

theorem flatMap_entry_nodup (f : FieldDef → Option Val) (fds : List FieldDef)
    (h : (fds.map (·.extName)).Nodup) :
    Dict.Nodup (fds.flatMap fun fd => entryOf fd (f fd)) := by
  unfold Dict.Nodup Dict.keys
  have hsub : ((fds.flatMap fun fd => entryOf fd (f fd)).map Prod.fst).Sublist
      (fds.map fun fd => Key.str fd.extName) := by
    induction fds with
    | nil => simp
    | cons fd fds ih =>
      simp only [List.flatMap_cons, List.map_append, List.map_cons]
      have := ih (by simp at h; exact h.2)
      cases f fd with
      | none => simpa [entryOf] using this.cons (Key.str fd.extName)
      | some w => simpa [entryOf] using this
  refine hsub.nodup ?_
  have : (fds.map fun fd => Key.str fd.extName) = (fds.map (·.extName)).map Key.str := by simp
  rw [this]
  exact List.Pairwise.map Key.str (fun a b hab h => hab (by injection h)) h

theorem exportLoop_ok {rec : ERec} {ctx : ECtx} {c : ClassDef} {src : Src} {d : Data}
    (h : exportLoop rec ctx c src = .ok d) :
    ∃ (flt : Option RoleFn) (f : FieldDef → Option Val), roleFilter ctx c = some flt ∧
      (∀ fd ∈ c.fields, exportField rec ctx c.exportLevel flt src fd = .ok (f fd)) ∧
      d = Dict.update [] (c.fields.flatMap fun fd => entryOf fd (f fd)) := by
  unfold exportLoop at h
  split at h
  · cases h
  · rename_i flt hflt
    rw [exportFields_eq] at h
    split at h
    · cases h
    · rename_i kvs hk
      obtain ⟨f, hf, rfl⟩ := exportOuts_ok.1 hk
      injection h with h
      exact ⟨flt, f, hflt, hf, h.symm⟩

theorem exportLoop_of {rec : ERec} {ctx : ECtx} {c : ClassDef} {src : Src} {flt : Option RoleFn}
    {f : FieldDef → Option Val} (h1 : roleFilter ctx c = some flt)
    (h2 : ∀ fd ∈ c.fields, exportField rec ctx c.exportLevel flt src fd = .ok (f fd)) :
    exportLoop rec ctx c src = .ok (Dict.update [] (c.fields.flatMap fun fd => entryOf fd (f fd))) := by
  unfold exportLoop
  rw [h1]
  simp only [exportFields_eq]
  rw [exportOuts_ok.2 ⟨f, h2, rfl⟩]

theorem mem_update_nil {kvs : List (Key × Val)} {kv : Key × Val} (h : kv ∈ Dict.update ([] : Data) kvs) :
    kv ∈ kvs := by
  have gen : ∀ (kvs : List (Key × Val)) (d : Data), kv ∈ Dict.update d kvs → kv ∈ d ∨ kv ∈ kvs := by
    intro kvs
    induction kvs with
    | nil => intro d h; exact Or.inl h
    | cons a kvs ih =>
      intro d h
      rw [Dict.update_cons] at h
      rcases ih _ h with h | h
      · have : ∀ d : Data, kv ∈ Dict.set d a.1 a.2 → kv ∈ d ∨ kv = a := by
          intro d
          induction d with
          | nil => intro h; simp [Dict.set] at h; right; exact h
          | cons b d ihd =>
            intro h
            obtain ⟨bk, bv⟩ := b
            simp only [Dict.set] at h
            split at h
            · rename_i hb
              rcases List.mem_cons.1 h with h | h
              · right; rw [h, hb]
              · left; simp [h]
            · rcases List.mem_cons.1 h with h | h
              · left; simp [h]
              · rcases ihd h with h | h
                · left; simp [h]
                · right; exact h
        rcases this _ h with h | h
        · exact Or.inl h
        · right; simp [h]
      · right; simp [h]
  rcases gen _ _ h with h | h
  · cases h
  · exact h

/-- Every entry of an exported dict comes from a field. -/
theorem exportLoop_mem {rec : ERec} {ctx : ECtx} {c : ClassDef} {src : Src} {d : Data}
    (h : exportLoop rec ctx c src = .ok d) {kv : Key × Val} (hkv : kv ∈ d) :
    ∃ flt fd, roleFilter ctx c = some flt ∧ fd ∈ c.fields ∧ kv.1 = .str fd.extName ∧
      exportField rec ctx c.exportLevel flt src fd = .ok (some kv.2) := by
  obtain ⟨flt, f, h1, h2, rfl⟩ := exportLoop_ok h
  have := mem_update_nil hkv
  obtain ⟨fd, hfd, he⟩ := List.mem_flatMap.1 this
  refine ⟨flt, fd, h1, hfd, ?_⟩
  cases hf : f fd with
  | none => rw [hf] at he; cases he
  | some w =>
    rw [hf] at he
    simp only [entryOf, List.mem_singleton] at he
    subst he
    exact ⟨rfl, by rw [h2 fd hfd, hf]⟩

theorem exportField_some {rec : ERec} {ctx : ECtx} {owner : Nat} {flt : Option RoleFn} {src : Src}
    {fd : FieldDef} {w : Val} (h : exportField rec ctx owner flt src fd = .ok (some w)) :
    (∀ g, flt = some g → g fd.name (src.read fd) = false) ∧
    exportLevelOf ctx owner fd.field ≠ DROP ∧
    ∃ u, (if (src.read fd).isEmpty then .ok (src.read fd) else rec owner fd.field (src.read fd)) = Except.ok u ∧
      hidden (exportLevelOf ctx owner fd.field) fd.field u = false ∧ w = nullify u := by
  unfold exportField at h
  simp only [] at h
  by_cases hs : skipped flt fd.name (src.read fd) = true
  · rw [if_pos hs] at h; cases h
  · rw [if_neg hs] at h
    split at h
    · cases h
    · rename_i hl
      split at h
      · cases h
      · rename_i u hu
        split at h
        · cases h
        · rename_i hh
          injection h with h
          injection h with h
          refine ⟨?_, hl, u, hu, by simpa using hh, h.symm⟩
          intro g hg
          subst hg
          simpa [skipped] using hs

end Verif
