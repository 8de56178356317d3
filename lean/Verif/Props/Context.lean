import Verif.Lib.Context
import Mathlib.Tactic.Common

/-!
# C70: contexts
-/
namespace Verif.Lib

/-- The options given that are not `None`; the last of several with the same name. -/
def given (kwargs : List (String × Val)) (k : String) : Option Val := Dict.get? (kwargs.filter fun kv => notNone kv.2) k

/-- **C70, write once**: an option of a context can be set iff it has no value yet; then only this option changes. -/
theorem C70_write_once (h : Heap) (i : Nat) (name : String) (v : Val) (hi : i < h.length) :
    (setAttr h i name v = none ↔ (option h i name).isSome) ∧
    ∀ h', setAttr h i name v = some h' → option h' i name = some v ∧
      ∀ j n, (j, n) ≠ (i, name) → option h' j n = option h j n := by
  obtain ⟨c, hc⟩ : ∃ c, h[i]? = some c := ⟨h[i], by simp [hi]⟩
  unfold setAttr
  simp only [hc, option]
  have hhas : (c.get? name).isSome = c.has name := rfl
  rw [hhas]
  constructor
  · cases c.has name <;> simp
  · intro h' hh
    cases hp : c.has name with
    | true => rw [hp] at hh; cases hh
    | false =>
      rw [hp] at hh
      cases hh
      constructor
      · simp [hi]
      · intro j n hjn
        by_cases hj : i = j
        · subst hj
          have hn : name ≠ n := by rintro rfl; exact hjn rfl
          simp only [List.getElem?_set_self hi, hc, Dict.get?_set_ne _ _ hn]
        · simp [List.getElem?_set_ne hj]

theorem setDefaults_option (h : Heap) (i : Nat) (src : Opts) (hn : ∀ c, h[i]? = some c → c.Nodup) (hi : i < h.length) (hs : src.Nodup) (j : Nat) (n : String) :
    option (setDefaults h i src) j n = if j = i then (option h i n).or (src.get? n) else option h j n := by
  obtain ⟨c, hc⟩ : ∃ c, h[i]? = some c := ⟨h[i], by simp [hi]⟩
  unfold setDefaults
  simp only [hc, option]
  by_cases hj : j = i
  · subst hj
    simp only [if_true, List.getElem?_set_self hi]
    rw [Dict.get?_update _ _ (Dict.nodup_update hs c), Dict.get?_update _ _ (hn c hc)]
    cases c.get? n <;> simp
  · simp only [hj, if_false]
    rw [List.getElem?_set_ne (fun e => hj e.symm)]

/-- **C70, defaults never overwrite**: `_setdefaults` gives the missing options their defaults and leaves all others, and all other
contexts, as they are. -/
theorem C70_defaults (h : Heap) (i : Nat) (src : Opts) (hi : i < h.length) (hn : ∀ c, h[i]? = some c → c.Nodup) (hs : src.Nodup) (j : Nat) (n : String) :
    (∀ v, option h j n = some v → option (setDefaults h i src) j n = some v) ∧
    (option h i n = none → option (setDefaults h i src) i n = src.get? n) ∧
    (j ≠ i → option (setDefaults h i src) j n = option h j n) := by
  rw [setDefaults_option h i src hn hi hs j n, setDefaults_option h i src hn hi hs i n]
  refine ⟨?_, ?_, ?_⟩
  · intro v hv
    split
    · rename_i e; subst e; rw [hv]; rfl
    · exact hv
  · intro h0; simp [h0]
  · intro e; simp [e]

theorem branchItems_some {neq : Val → Val → Bool} {c : Opts} {kwargs items : List (String × Val)} (h : branchItems neq c kwargs = some items) :
    (∀ kv ∈ items, kv ∈ kwargs ∧ notNone kv.2 = true ∧ ∃ w, c.get? kv.1 = some w ∧ neq kv.2 w = true) ∧
    ∀ kv ∈ kwargs, notNone kv.2 = true → (∃ w, c.get? kv.1 = some w ∧ (neq kv.2 w = true → kv ∈ items)) := by
  induction kwargs generalizing items with
  | nil => cases h; simp
  | cons kv r ih =>
    obtain ⟨k, v⟩ := kv
    unfold branchItems at h
    split at h
    · rename_i hv
      cases hw : c.get? k with
      | none => rw [hw] at h; cases h
      | some w =>
        cases hr : branchItems neq c r with
        | none => rw [hw, hr] at h; cases h
        | some items' =>
          rw [hw, hr] at h
          simp only [Option.some.injEq] at h
          obtain ⟨h1, h2⟩ := ih hr
          subst h
          constructor
          · intro kv hkv
            split at hkv
            · rename_i hne
              rcases List.mem_cons.1 hkv with rfl | hkv
              · exact ⟨by simp, hv, w, hw, hne⟩
              · obtain ⟨a, b⟩ := h1 kv hkv; exact ⟨by simp [a], b⟩
            · obtain ⟨a, b⟩ := h1 kv hkv; exact ⟨by simp [a], b⟩
          · intro kv hkv hnn
            rcases List.mem_cons.1 hkv with rfl | hkv
            · refine ⟨w, hw, fun hne => ?_⟩
              simp only at hne
              rw [if_pos hne]; simp
            · obtain ⟨w', a, b⟩ := h2 kv hkv hnn
              refine ⟨w', a, fun hne => ?_⟩
              split
              · simp [b hne]
              · exact b hne
    · rename_i hv
      obtain ⟨h1, h2⟩ := ih h
      constructor
      · intro kv hkv
        obtain ⟨a, b⟩ := h1 kv hkv; exact ⟨by simp [a], b⟩
      · intro kv hkv hnn
        rcases List.mem_cons.1 hkv with rfl | hkv
        · exact absurd hnn hv
        · exact h2 kv hkv hnn

theorem branchItems_keys {neq : Val → Val → Bool} {c : Opts} {kwargs items : List (String × Val)} (h : branchItems neq c kwargs = some items)
    (hn : Dict.Nodup kwargs) : Dict.Nodup items := by
  have : items.Sublist kwargs := by
    induction kwargs generalizing items with
    | nil => cases h; exact List.Sublist.refl _
    | cons kv r ih =>
      obtain ⟨k, v⟩ := kv
      simp only [Dict.Nodup, Dict.keys_cons, List.nodup_cons] at hn
      unfold branchItems at h
      split at h
      · cases hw : c.get? k with
        | none => rw [hw] at h; cases h
        | some w =>
          cases hr : branchItems neq c r with
          | none => rw [hw, hr] at h; cases h
          | some items' =>
            rw [hw, hr] at h
            simp only [Option.some.injEq] at h
            subst h
            split
            · exact (ih hr hn.2).cons_cons _
            · exact (ih hr hn.2).cons _
      · exact (ih h hn.2).cons _
  exact (this.map Prod.fst).nodup hn

/-- **C70, branching**: for an equality test that only identifies equal values (`neq v w = false` implies `v = w`), the branch of a context
has the given options that are not `None`, and otherwise those of the parent; the parent and all other contexts are unchanged; the branch is the parent
itself iff no given option differs; it fails iff an option is given that the parent does not have. -/
theorem C70_branch (neq : Val → Val → Bool) (hneq : ∀ v w, neq v w = false → v = w) (hirr : ∀ v, neq v v = false) (h : Heap) (i : Nat) (kwargs : List (String × Val))
    (hk : Dict.Nodup kwargs) (hi : i < h.length) :
    (branch neq h i kwargs = none ↔ ∃ kv ∈ kwargs, kv.2 ≠ .none ∧ option h i kv.1 = none) ∧
    ∀ h' j, branch neq h i kwargs = some (h', j) →
      (∀ n, option h' j n = (given kwargs n).or (option h i n)) ∧
      (∀ j' n, j' < h.length → option h' j' n = option h j' n) ∧
      (j = i ↔ ∀ kv ∈ kwargs, kv.2 ≠ .none → option h i kv.1 = some kv.2) := by
  obtain ⟨c, hc⟩ : ∃ c, h[i]? = some c := ⟨h[i], by simp [hi]⟩
  have hopt : ∀ n, option h i n = c.get? n := by intro n; simp [option, hc]
  have hnn : ∀ v : Val, notNone v = true ↔ v ≠ .none := by intro v; cases v <;> simp [notNone]
  constructor
  · unfold branch
    simp only [hc, hopt]
    have : branchItems neq c kwargs = none ↔ ∃ kv ∈ kwargs, kv.2 ≠ .none ∧ c.get? kv.1 = none := by
      clear hk
      induction kwargs with
      | nil => simp [branchItems]
      | cons kv r ih =>
        obtain ⟨k, v⟩ := kv
        unfold branchItems
        split
        · rename_i hv
          rw [hnn] at hv
          cases hw : c.get? k with
          | none => simp only [true_iff]; exact ⟨(k, v), by simp, hv, hw⟩
          | some w =>
            cases hr : branchItems neq c r with
            | none =>
              obtain ⟨kv, h1, h2⟩ := ih.1 hr
              simp only [true_iff]
              exact ⟨kv, by simp [h1], h2⟩
            | some items =>
              simp only [reduceCtorEq, false_iff, not_exists, not_and]
              intro kv hkv h1 h2
              rcases List.mem_cons.1 hkv with rfl | hkv
              · rw [hw] at h2; cases h2
              · have := ih.2 ⟨kv, hkv, h1, h2⟩; rw [hr] at this; cases this
        · rename_i hv
          have hv : v = .none := by rw [hnn] at hv; simpa using hv
          rw [ih]
          simp [hv]
    cases hb : branchItems neq c kwargs with
    | none => simp [this.1 hb]
    | some items =>
      have hno := mt this.2 (by rw [hb]; simp)
      cases items <;> simp [hno]
  · intro h' j hb
    unfold branch at hb
    simp only [hc] at hb
    cases hit : branchItems neq c kwargs with
    | none => rw [hit] at hb; cases hb
    | some items =>
      obtain ⟨h1, h2⟩ := branchItems_some hit
      have hnd := branchItems_keys hit hk
      have hgiven : ∀ n, (given kwargs n).or (c.get? n) = (Dict.get? items n).or (c.get? n) := by
        intro n
        have hkf : Dict.Nodup (kwargs.filter fun kv => notNone kv.2) := (List.filter_sublist.map Prod.fst).nodup hk
        cases hg : given kwargs n with
        | some v =>
          have hm := Dict.mem_of_get? hg
          rw [List.mem_filter] at hm
          obtain ⟨w, hw, hin⟩ := h2 (n, v) hm.1 hm.2
          cases hne : neq v w with
          | true => rw [Dict.get?_of_mem hnd (hin hne)]
          | false =>
            have := hneq v w hne
            subst this
            cases hgi : Dict.get? items n with
            | none => simp [hw]
            | some x =>
              obtain ⟨h3, h4, -⟩ := h1 _ (Dict.mem_of_get? hgi)
              have : given kwargs n = some x := Dict.get?_of_mem hkf (List.mem_filter.2 ⟨h3, h4⟩)
              rw [hg] at this; cases this; rfl
        | none =>
          cases hgi : Dict.get? items n with
          | none => rfl
          | some x =>
            obtain ⟨h3, h4, -⟩ := h1 _ (Dict.mem_of_get? hgi)
            have : given kwargs n = some x := Dict.get?_of_mem hkf (List.mem_filter.2 ⟨h3, h4⟩)
            rw [hg] at this; cases this
      rw [hit] at hb
      cases items with
      | nil =>
        cases hb
        refine ⟨fun n => ?_, fun _ _ _ => rfl, ?_⟩
        · rw [hopt, hgiven]; rfl
        · simp only [true_iff]
          intro kv hkv hv
          obtain ⟨w, hw, hin⟩ := h2 kv hkv ((hnn _).2 hv)
          cases hne : neq kv.2 w with
          | true => cases hin hne
          | false => rw [hopt, hw, hneq _ _ hne]
      | cons x items =>
        simp only [Option.some.injEq, Prod.mk.injEq] at hb
        obtain ⟨rfl, rfl⟩ := hb
        refine ⟨fun n => ?_, fun j' n hj' => ?_, ?_⟩
        · simp only [option, List.getElem?_append_right (Nat.le_refl _), Nat.sub_self, List.getElem?_cons_zero, hc]
          rw [hgiven, Dict.get?_update _ _ hnd]
        · simp only [option, List.getElem?_append_left hj']
        · constructor
          · intro e; omega
          · intro hall
            obtain ⟨h3, h4, w, hw, hne⟩ := h1 x (by simp)
            have := hall x h3 ((hnn _).1 h4)
            rw [hopt, hw] at this
            cases this
            rw [hirr] at hne
            cases hne

/-- **C70, options of a call**: the options in force are those of the context passed by the caller and, only if that context was never used
before, the arguments of the call for the others. -/
theorem C70_call_options (h : Heap) (i : Nat) (args : Opts) (hi : i < h.length) (hn : ∀ c, h[i]? = some c → c.Nodup) (ha : args.Nodup)
    (n : String) :
    option (enter h (.object i) args).1 (enter h (.object i) args).2 n =
      if (option h i "initialized").isSome then option h i n else (option h i n).or (args.get? n) := by
  obtain ⟨c, hc⟩ : ∃ c, h[i]? = some c := ⟨h[i], by simp [hi]⟩
  have hopt : ∀ n, option h i n = c.get? n := by intro n; simp [option, hc]
  unfold enter make
  simp only [hc]
  rw [hopt "initialized", show (c.get? "initialized").isSome = c.has "initialized" from rfl]
  cases c.has "initialized" with
  | true => rfl
  | false =>
    have := setDefaults_option h i args hn hi ha i n
    simpa using this

/-- **C70, a used context ignores the arguments of later calls**: after one call with a context object, a second call with the same object
runs with exactly the options of the first one. -/
theorem C70_second_call (h : Heap) (i : Nat) (args args' : Opts) (hi : i < h.length) (hn : ∀ c, h[i]? = some c → c.Nodup) (ha : args.Nodup)
    (hinit : args.has "initialized" = true) (n : String) :
    option (enter (enter h (.object i) args).1 (.object i) args').1 i n = option (enter h (.object i) args).1 i n := by
  obtain ⟨c, hc⟩ : ∃ c, h[i]? = some c := ⟨h[i], by simp [hi]⟩
  have h1 := C70_call_options h i args hi hn ha "initialized"
  have h2 : (enter h (.object i) args).2 = i := by
    unfold enter make
    simp only [hc]
    split <;> rfl
  rw [h2] at h1
  have h3 : (option (enter h (.object i) args).1 i "initialized").isSome = true := by
    rw [h1]
    split
    · assumption
    · cases hh : option h i "initialized" with
      | some x => rfl
      | none => simpa [Dict.has] using hinit
  generalize (enter h (.object i) args).1 = g at h3 ⊢
  unfold enter make
  simp only [option] at h3 ⊢
  cases hg : g[i]? with
  | none => rw [hg] at h3; cases h3
  | some d =>
    rw [hg] at h3
    have h3 : d.has "initialized" = true := h3
    simp only [h3, if_true, hg]

/-! ## The hypotheses are met -/

/-- Two contexts: one fresh, one used. -/
def sampleHeap : Heap := [[("app_data", .dict [])], [("initialized", .bool true), ("strict", .bool true), ("mapping", .dict [])]]

/-- `!=` on these values. -/
def sampleNeq (v w : Val) : Bool := !Val.pyEq v w

example : setAttr sampleHeap 0 "strict" (.bool true) =
    some [[("app_data", .dict []), ("strict", .bool true)], [("initialized", .bool true), ("strict", .bool true), ("mapping", .dict [])]] := rfl
example : setAttr sampleHeap 1 "strict" (.bool false) = none := rfl
example : option (enter sampleHeap (.object 0) [("initialized", .bool true), ("strict", .bool false)]).1 0 "strict" = some (.bool false) := by
  have := C70_call_options sampleHeap 0 [("initialized", .bool true), ("strict", .bool false)] (by decide)
    (by intro c h; cases h; unfold Dict.Nodup; decide) (by unfold Dict.Nodup; decide) "strict"
  exact this
example : ((branch sampleNeq sampleHeap 1 [("mapping", .none), ("strict", .bool true)]).map Prod.snd, (branch sampleNeq sampleHeap 1 [("strict", .bool false)]).map Prod.snd) =
    (some 1, some 2) := rfl

end Verif.Lib
