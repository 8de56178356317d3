/-!
# Python dictionaries

Insertion-ordered dictionaries as association lists.  Models the `dict`
operations used throughout `schematics` (CPython >= 3.7 insertion order).
Not part of `/repo` itself: this is the modelled part of the Python runtime.
-/
namespace Verif

/-- A Python `dict` (insertion ordered).  Well-formedness (distinct keys) is a
separate predicate, `Dict.Nodup`, preserved by all operations. -/
abbrev Dict (K V : Type) := List (K × V)

namespace Dict

variable {K V W : Type} [DecidableEq K]

/-- `d.get(k)`; `none` = key absent. -/
def get? : Dict K V → K → Option V
  | [], _ => none
  | (k, v) :: d, x => if k = x then some v else get? d x

/-- `k in d`. -/
def has (d : Dict K V) (k : K) : Bool := (get? d k).isSome

/-- `d[k] = v`: overwrites in place or appends. -/
def set : Dict K V → K → V → Dict K V
  | [], x, v => [(x, v)]
  | (k, w) :: d, x, v => if k = x then (k, v) :: d else (k, w) :: set d x v

/-- `d.pop(k, None)` / `del d[k]` ignoring a missing key. -/
def erase : Dict K V → K → Dict K V
  | [], _ => []
  | (k, w) :: d, x => if k = x then d else (k, w) :: erase d x

/-- `d.update(e)`. -/
def update (d e : Dict K V) : Dict K V := e.foldl (fun d kv => set d kv.1 kv.2) d

/-- `list(d)`. -/
def keys (d : Dict K V) : List K := d.map Prod.fst

/-- Distinct keys. -/
def Nodup (d : Dict K V) : Prop := d.keys.Nodup

@[simp] theorem get?_nil (k : K) : get? ([] : Dict K V) k = none := rfl

theorem get?_cons (k : K) (v : V) (d : Dict K V) (x : K) :
    get? ((k, v) :: d) x = if k = x then some v else get? d x := rfl

omit [DecidableEq K] in
@[simp] theorem keys_nil : keys ([] : Dict K V) = [] := rfl
omit [DecidableEq K] in
@[simp] theorem keys_cons (kv : K × V) (d : Dict K V) : keys (kv :: d) = kv.1 :: keys d := rfl

theorem get?_set (d : Dict K V) (k x : K) (v : V) :
    get? (set d k v) x = if k = x then some v else get? d x := by
  induction d with
  | nil => simp [set, get?]
  | cons kw d ih =>
    obtain ⟨k', w⟩ := kw
    by_cases h : k' = k
    · subst h
      simp only [set, if_true, get?]
      by_cases hx : k' = x <;> simp [hx]
    · simp only [set, h, if_false, get?, ih]
      by_cases hx : k' = x
      · subst hx
        simp [Ne.symm h]
      · simp [hx]

@[simp] theorem get?_set_self (d : Dict K V) (k : K) (v : V) : get? (set d k v) k = some v := by
  simp [get?_set]

theorem get?_set_ne (d : Dict K V) {k x : K} (v : V) (h : k ≠ x) :
    get? (set d k v) x = get? d x := by
  simp [get?_set, h]

theorem get?_isSome (d : Dict K V) (k : K) : (get? d k).isSome = true ↔ k ∈ keys d := by
  induction d with
  | nil => simp
  | cons kw d ih =>
    obtain ⟨k', w⟩ := kw
    by_cases h : k' = k
    · simp [get?, h]
    · simp [get?, h, ih, Ne.symm h]

theorem has_iff (d : Dict K V) (k : K) : has d k = true ↔ k ∈ keys d := get?_isSome d k

theorem get?_eq_none (d : Dict K V) (k : K) : get? d k = none ↔ k ∉ keys d := by
  rw [← get?_isSome]
  cases get? d k <;> simp

theorem mem_of_get? {d : Dict K V} {k : K} {v : V} (h : get? d k = some v) : (k, v) ∈ d := by
  induction d with
  | nil => simp at h
  | cons kw d ih =>
    obtain ⟨k', w⟩ := kw
    by_cases hk : k' = k
    · simp [get?, hk] at h
      simp [hk, h]
    · simp [get?, hk] at h
      exact List.mem_cons_of_mem _ (ih h)

theorem get?_of_mem {d : Dict K V} (hd : Nodup d) {k : K} {v : V} (h : (k, v) ∈ d) :
    get? d k = some v := by
  induction d with
  | nil => simp at h
  | cons kw d ih =>
    obtain ⟨k', w⟩ := kw
    simp only [Nodup, keys_cons, List.nodup_cons] at hd
    rcases List.mem_cons.1 h with h | h
    · cases h
      simp [get?]
    · have hk : k' ≠ k := by
        rintro rfl
        exact hd.1 (List.mem_map.2 ⟨_, h, rfl⟩)
      simp [get?, hk, ih hd.2 h]

theorem keys_set (d : Dict K V) (k : K) (v : V) :
    keys (set d k v) = if k ∈ keys d then keys d else keys d ++ [k] := by
  induction d with
  | nil => simp [set]
  | cons kw d ih =>
    obtain ⟨k', w⟩ := kw
    by_cases h : k' = k
    · simp [set, h]
    · simp only [set, h, if_false, keys_cons, ih, List.mem_cons, Ne.symm h, false_or]
      split <;> simp

theorem mem_keys_set (d : Dict K V) (k x : K) (v : V) :
    x ∈ keys (set d k v) ↔ x = k ∨ x ∈ keys d := by
  rw [keys_set]
  split
  · rename_i h
    constructor
    · exact Or.inr
    · rintro (rfl | h')
      · exact h
      · exact h'
  · simp [or_comm]

theorem nodup_set {d : Dict K V} (hd : Nodup d) (k : K) (v : V) : Nodup (set d k v) := by
  unfold Nodup
  rw [keys_set]
  split
  · exact hd
  · rename_i h
    rw [List.nodup_append]
    refine ⟨hd, by simp, ?_⟩
    intro a ha b hb
    simp only [List.mem_singleton] at hb
    subst hb
    rintro rfl
    exact h ha

@[simp] theorem update_nil (d : Dict K V) : update d [] = d := rfl
theorem update_cons (d : Dict K V) (kv : K × V) (e : Dict K V) :
    update d (kv :: e) = update (set d kv.1 kv.2) e := rfl

theorem mem_keys_update (d e : Dict K V) (x : K) :
    x ∈ keys (update d e) ↔ x ∈ keys d ∨ x ∈ keys e := by
  induction e generalizing d with
  | nil => simp
  | cons kv e ih =>
    rw [update_cons, ih, mem_keys_set]
    simp only [keys_cons, List.mem_cons]
    constructor
    · rintro ((h | h) | h) <;> simp [h]
    · rintro (h | h | h) <;> simp [h]

theorem nodup_update {d : Dict K V} (hd : Nodup d) (e : Dict K V) : Nodup (update d e) := by
  induction e generalizing d with
  | nil => exact hd
  | cons kv e ih => exact ih (nodup_set hd _ _)

/-- `d.update(e)` with distinct keys in `e`: lookups see `e` first. -/
theorem get?_update (d e : Dict K V) (he : Nodup e) (x : K) :
    get? (update d e) x = (get? e x).or (get? d x) := by
  induction e generalizing d with
  | nil => simp
  | cons kv e ih =>
    obtain ⟨k, v⟩ := kv
    simp only [Nodup, keys_cons, List.nodup_cons] at he
    rw [update_cons, ih _ he.2, get?_cons, get?_set]
    by_cases h : k = x
    · subst h
      have : get? e k = none := (get?_eq_none e k).2 he.1
      simp [this]
    · simp [h]

theorem get?_update_none (d e : Dict K V) {x : K} (h : x ∉ keys e) :
    get? (update d e) x = get? d x := by
  induction e generalizing d with
  | nil => rfl
  | cons kv e ih =>
    simp only [keys_cons, List.mem_cons, not_or] at h
    rw [update_cons, ih _ h.2, get?_set_ne _ _ (Ne.symm h.1)]

theorem keys_erase (d : Dict K V) (k : K) : keys (erase d k) = (keys d).erase k := by
  induction d with
  | nil => rfl
  | cons kw d ih =>
    obtain ⟨k', w⟩ := kw
    by_cases h : k' = k
    · simp [erase, h]
    · simp [erase, h, ih]

theorem nodup_erase {d : Dict K V} (hd : Nodup d) (k : K) : Nodup (erase d k) := by
  unfold Nodup
  rw [keys_erase]
  exact hd.erase k

theorem get?_erase {d : Dict K V} (hd : Nodup d) (k x : K) :
    get? (erase d k) x = if k = x then none else get? d x := by
  induction d with
  | nil => simp [erase]
  | cons kw d ih =>
    obtain ⟨k', w⟩ := kw
    simp only [Nodup, keys_cons, List.nodup_cons] at hd
    by_cases h : k' = k
    · subst h
      simp only [erase, if_true, get?]
      by_cases hx : k' = x
      · subst hx
        simpa using (get?_eq_none d k').2 hd.1
      · simp [hx]
    · simp only [erase, h, if_false, get?, ih hd.2]
      by_cases hx : k' = x
      · subst hx
        simp [Ne.symm h]
      · simp [hx]

theorem get?_erase_ne (d : Dict K V) {k x : K} (h : k ≠ x) :
    get? (erase d k) x = get? d x := by
  induction d with
  | nil => rfl
  | cons kw d ih =>
    obtain ⟨k', w⟩ := kw
    by_cases hk : k' = k
    · subst hk
      simp [erase, get?, h]
    · simp [erase, hk, get?, ih]

theorem mem_keys_erase_of {d : Dict K V} {k x : K} (h : x ∈ keys (erase d k)) : x ∈ keys d := by
  rw [keys_erase] at h
  exact List.mem_of_mem_erase h

omit [DecidableEq K] in
/-- Mapping over values keeps the keys. -/
theorem keys_map_val (d : Dict K V) (f : K → V → W) :
    keys (d.map fun kv => (kv.1, f kv.1 kv.2)) = keys d := by
  simp [keys]

end Dict
end Verif
