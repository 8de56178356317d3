import Verif.Lib.TypeClass
import Mathlib.Data.List.Nodup

/-!
# C80: what a type class inherits
-/
namespace Verif.Lib.TypeClass

open Verif.Lib.Callable

variable {μ : Type}

/-- `a` is the class `i` itself or one it derives from. -/
inductive Anc (w : World μ) : Nat → Nat → Prop
  | refl (i : Nat) : i < w.length → Anc w i i
  | step (i b a : Nat) (c : Cls μ) : w[i]? = some c → b ∈ c.bases → Anc w b a → Anc w i a

/-- The message for a key that a class shows, as seen by attribute access. -/
def classMessage (w : World μ) (i : Nat) (k : String) : Option μ := (classAttr w Cls.messages i).bind (Dict.get? · k)

/-- The body of a class statement is made of Python dictionaries. -/
structure Decl.Ok (d : Decl μ) : Prop where
  own : d.own.Nodup
  messages : ∀ m, d.messages = some m → m.Nodup

/-- The first occurrences of the elements of a list, in order, leaving out those of `seen`. -/
def firsts (seen : List String) : List String → List String
  | [] => []
  | x :: r => if x ∈ seen then firsts seen r else x :: firsts (seen ++ [x]) r

/-! ## The linearisation -/

theorem goodHead_mem (all : List (List Nat)) : ∀ (ss : List (List Nat)) (x : Nat), goodHead all ss = some x →
    (∃ r, (x :: r) ∈ ss) ∧ ∀ s ∈ all, x ∉ s.tail := by
  intro ss x
  induction ss with
  | nil => intro h; cases h
  | cons s ss ih =>
    intro h
    cases s with
    | nil =>
      obtain ⟨⟨r, hr⟩, h2⟩ := ih h
      exact ⟨⟨r, by simp [hr]⟩, h2⟩
    | cons y r =>
      unfold goodHead at h
      by_cases hc : (all.any fun s => s.tail.contains y) = true
      · rw [if_pos hc] at h
        obtain ⟨⟨r, hr⟩, h2⟩ := ih h
        exact ⟨⟨r, by simp [hr]⟩, h2⟩
      · rw [if_neg hc] at h
        cases h
        refine ⟨⟨r, by simp⟩, ?_⟩
        intro s hs hx
        apply hc
        simp only [List.any_eq_true, List.contains_iff_mem]
        exact ⟨s, hs, by simpa using hx⟩

theorem dropHead_cons (x y : Nat) (r : List Nat) : dropHead x (y :: r) = if y = x then r else y :: r := rfl

theorem mem_dropHead (x y : Nat) (s : List Nat) : y ∈ s → y = x ∨ y ∈ dropHead x s := by
  intro h
  cases s with
  | nil => cases h
  | cons z r =>
    rw [dropHead_cons]
    by_cases e : z = x
    · rw [if_pos e]
      rcases List.mem_cons.1 h with h | h
      · exact Or.inl (h.trans e)
      · exact Or.inr h
    · rw [if_neg e]; exact Or.inr h

theorem mem_of_dropHead (x y : Nat) (s : List Nat) : y ∈ dropHead x s → y ∈ s := by
  intro h
  cases s with
  | nil => cases h
  | cons z r =>
    rw [dropHead_cons] at h
    by_cases e : z = x
    · rw [if_pos e] at h; exact List.mem_cons_of_mem _ h
    · rw [if_neg e] at h; exact h

/-- The merge contains exactly the elements of the sequences, each once, and keeps their orders. -/
theorem merge_spec : ∀ (n : Nat) (ss : List (List Nat)) (r : List Nat), merge n ss = some r →
    (∀ x, x ∈ r ↔ ∃ s ∈ ss, x ∈ s) ∧ r.Nodup ∧ ∀ s ∈ ss, s.Sublist r := by
  have base : ∀ (ss : List (List Nat)), ss.all List.isEmpty = true →
      (∀ x, x ∈ ([] : List Nat) ↔ ∃ s ∈ ss, x ∈ s) ∧ ([] : List Nat).Nodup ∧ ∀ s ∈ ss, s.Sublist [] := by
    intro ss h
    have h' : ∀ s ∈ ss, s = [] := by
      intro s hs
      have := List.all_eq_true.1 h s hs
      simpa using this
    refine ⟨?_, List.nodup_nil, ?_⟩
    · intro x
      constructor
      · intro hx; cases hx
      · rintro ⟨s, hs, hx⟩; rw [h' s hs] at hx; cases hx
    · intro s hs; rw [h' s hs]
  intro n
  induction n with
  | zero =>
    intro ss r h
    unfold merge at h
    by_cases he : ss.all List.isEmpty = true
    · rw [if_pos he] at h; cases h; exact base ss he
    · rw [if_neg he] at h; cases h
  | succ n ih =>
    intro ss r h
    unfold merge at h
    by_cases he : ss.all List.isEmpty = true
    · rw [if_pos he] at h; cases h; exact base ss he
    · rw [if_neg he] at h
      cases hg : goodHead ss ss with
      | none => rw [hg] at h; cases h
      | some x =>
        rw [hg] at h
        obtain ⟨r', hr', e⟩ := Option.map_eq_some_iff.1 h
        subst e
        obtain ⟨h1, h2, h3⟩ := ih _ _ hr'
        obtain ⟨⟨t, ht⟩, hx⟩ := goodHead_mem ss ss x hg
        have hnot : x ∉ r' := by
          intro hm
          obtain ⟨s', hs', hxs⟩ := (h1 x).1 hm
          obtain ⟨s, hs, rfl⟩ := List.mem_map.1 hs'
          have := hx s hs
          cases s with
          | nil => cases hxs
          | cons y l =>
            rw [dropHead_cons] at hxs
            by_cases e : y = x
            · rw [if_pos e] at hxs; exact this hxs
            · rw [if_neg e] at hxs
              rcases List.mem_cons.1 hxs with h | h
              · exact e h.symm
              · exact this h
        refine ⟨?_, List.nodup_cons.2 ⟨hnot, h2⟩, ?_⟩
        · intro y
          rw [List.mem_cons, h1]
          constructor
          · rintro (rfl | ⟨s', hs', hy⟩)
            · exact ⟨_, ht, by simp⟩
            · obtain ⟨s, hs, rfl⟩ := List.mem_map.1 hs'
              exact ⟨s, hs, mem_of_dropHead _ _ _ hy⟩
          · rintro ⟨s, hs, hy⟩
            rcases mem_dropHead x y s hy with h | h
            · exact Or.inl h
            · exact Or.inr ⟨_, List.mem_map.2 ⟨s, hs, rfl⟩, h⟩
        · intro s hs
          have := h3 _ (List.mem_map.2 ⟨s, hs, rfl⟩)
          cases s with
          | nil => exact List.nil_sublist _
          | cons y l =>
            rw [dropHead_cons] at this
            by_cases e : y = x
            · rw [if_pos e] at this; rw [e]; exact this.cons_cons x
            · rw [if_neg e] at this; exact this.cons x

theorem total_drop (x : Nat) : ∀ (ss : List (List Nat)), ((ss.map (dropHead x)).map List.length).sum ≤ (ss.map List.length).sum := by
  intro ss
  induction ss with
  | nil => simp
  | cons s ss ih =>
    simp only [List.map_cons, List.sum_cons]
    have : (dropHead x s).length ≤ s.length := by
      cases s with
      | nil => simp [dropHead]
      | cons y r => rw [dropHead_cons]; split <;> simp
    omega

theorem total_drop_lt (x : Nat) (t : List Nat) : ∀ (ss : List (List Nat)), (x :: t) ∈ ss →
    ((ss.map (dropHead x)).map List.length).sum < (ss.map List.length).sum := by
  intro ss
  induction ss with
  | nil => intro h; cases h
  | cons s ss ih =>
    intro h
    simp only [List.map_cons, List.sum_cons]
    rcases List.mem_cons.1 h with h | h
    · subst h
      have := total_drop x ss
      simp only [dropHead, if_true, List.length_cons]; omega
    · have := ih h
      have : (dropHead x s).length ≤ s.length := by
        cases s with
        | nil => simp [dropHead]
        | cons y r => rw [dropHead_cons]; split <;> simp
      omega

theorem le_total : ∀ (ss : List (List Nat)) (s : List Nat), s ∈ ss → s.length ≤ (ss.map List.length).sum := by
  intro ss
  induction ss with
  | nil => intro s h; cases h
  | cons t ss ih =>
    intro s h
    simp only [List.map_cons, List.sum_cons]
    rcases List.mem_cons.1 h with rfl | h
    · omega
    · have := ih s h; omega

/-- The fuel is never the reason for a failure: with the number of elements as fuel, more fuel changes nothing. -/
theorem merge_fuel : ∀ (n : Nat) (ss : List (List Nat)) (m : Nat), (ss.map List.length).sum ≤ n → n ≤ m → merge n ss = merge m ss := by
  intro n
  induction n with
  | zero =>
    intro ss m h _
    have he : ss.all List.isEmpty = true := by
      rw [List.all_eq_true]
      intro s hs
      have hl := le_total ss s hs
      have : s.length = 0 := by omega
      simpa using this
    unfold merge
    rw [if_pos he]
    cases m with
    | zero => simp only [he, if_true]
    | succ m => simp only [he, if_true]
  | succ n ih =>
    intro ss m h hm
    obtain ⟨k, rfl⟩ : ∃ k, m = k + 1 := ⟨m - 1, by omega⟩
    unfold merge
    by_cases he : ss.all List.isEmpty = true
    · rw [if_pos he, if_pos he]
    · rw [if_neg he, if_neg he]
      cases hg : goodHead ss ss with
      | none => rfl
      | some x =>
        obtain ⟨⟨t, ht⟩, -⟩ := goodHead_mem ss ss x hg
        have := total_drop_lt x t ss ht
        simp only []
        rw [ih _ k (by omega) (by omega)]

theorem basesMro_spec (w : World μ) : ∀ (bs : List Nat) (ss : List (List Nat)), basesMro w bs = some ss →
    (∀ s, s ∈ ss ↔ ∃ b ∈ bs, ∃ c, w[b]? = some c ∧ s = c.mro) ∧ ∀ b ∈ bs, b < w.length := by
  intro bs
  induction bs with
  | nil => intro ss h; cases h; simp
  | cons b bs ih =>
    intro ss h
    unfold basesMro at h
    cases hb : w[b]? with
    | none => rw [hb] at h; cases h
    | some c =>
      cases hr : basesMro w bs with
      | none => rw [hb, hr] at h; cases h
      | some ss' =>
        rw [hb, hr] at h; cases h
        obtain ⟨h1, h2⟩ := ih ss' hr
        constructor
        · intro s
          rw [List.mem_cons, h1]
          constructor
          · rintro (rfl | ⟨b', hb', c', hc', rfl⟩)
            · exact ⟨b, by simp, c, hb, rfl⟩
            · exact ⟨b', by simp [hb'], c', hc', rfl⟩
          · rintro ⟨b', hb', c', hc', rfl⟩
            rcases List.mem_cons.1 hb' with rfl | hb'
            · rw [hb] at hc'; cases hc'; exact Or.inl rfl
            · exact Or.inr ⟨b', hb', c', hc', rfl⟩
        · intro b' hb'
          rcases List.mem_cons.1 hb' with rfl | hb'
          · exact (List.getElem?_eq_some_iff.1 hb).1
          · exact h2 b' hb'

/-! ## Growing worlds -/

theorem anc_lt (w : World μ) {i a : Nat} (h : Anc w i a) : i < w.length := by
  cases h with
  | refl _ h => exact h
  | step _ _ _ c h _ _ => exact (List.getElem?_eq_some_iff.1 h).1

theorem anc_append (w : World μ) (x : Cls μ) {i a : Nat} (h : Anc w i a) : Anc (w ++ [x]) i a := by
  induction h with
  | refl i h => exact .refl i (by simp; omega)
  | step i b a c hi hb _ ih =>
    refine .step i b a c ?_ hb ih
    rw [List.getElem?_append_left (List.getElem?_eq_some_iff.1 hi).1]; exact hi

/-- What holds of every world that class statements produce. -/
structure Inv (w : World μ) : Prop where
  bases : ∀ (i : Nat) (c : Cls μ), w[i]? = some c → ∀ b ∈ c.bases, b < i
  mem : ∀ (i : Nat) (c : Cls μ), w[i]? = some c → ∀ a, a ∈ c.mro ↔ Anc w i a
  head : ∀ (i : Nat) (c : Cls μ), w[i]? = some c → ∃ r, c.mro = i :: r
  order : ∀ (i : Nat) (c : Cls μ), w[i]? = some c → ∀ b ∈ c.bases, ∀ cb : Cls μ, w[b]? = some cb → cb.mro.Sublist c.mro
  nodup : ∀ (i : Nat) (c : Cls μ), w[i]? = some c → c.mro.Nodup
  up : ∀ (i : Nat) (c : Cls μ), w[i]? = some c → ∀ b ∈ c.bases, ∀ cb : Cls μ, w[b]? = some cb → cb.isType = true → c.isType = true
  own : ∀ (i : Nat) (c : Cls μ), w[i]? = some c → c.own.Nodup
  plain : ∀ (i : Nat) (c : Cls μ), w[i]? = some c → c.isType = false → c.validators = none
  typed : ∀ (i : Nat) (c : Cls μ), w[i]? = some c → c.isType = true → c.messages.isSome = true ∧ c.validators.isSome = true
  msgs : ∀ (i : Nat) (c : Cls μ), w[i]? = some c → ∀ m : Dict String μ, c.messages = some m → m.Nodup
  vals : ∀ (i : Nat) (c : Cls μ), w[i]? = some c → ∀ m : Dict String Unit, c.validators = some m → m.Nodup

theorem Inv.anc_of_append {w : World μ} (hw : Inv w) (x : Cls μ) {i a : Nat} (h : Anc (w ++ [x]) i a) (hi : i < w.length) : Anc w i a := by
  induction h with
  | refl i h => exact .refl i hi
  | step i b a c hi' hb _ ih =>
    rw [List.getElem?_append_left hi] at hi'
    exact .step i b a c hi' hb (ih (Nat.lt_trans (hw.bases i c hi' b hb) hi))

theorem Inv.anc_le {w : World μ} (hw : Inv w) {i a : Nat} (h : Anc w i a) : a ≤ i := by
  induction h with
  | refl i _ => exact Nat.le_refl _
  | step i b a c hi hb _ ih => exact Nat.le_trans ih (Nat.le_of_lt (hw.bases i c hi b hb))

theorem anc_trans {w : World μ} {i a b : Nat} (h : Anc w i a) (h' : Anc w a b) : Anc w i b := by
  induction h with
  | refl => exact h'
  | step i b' a c hi hb _ ih => exact .step i b' _ c hi hb (ih h')

theorem Inv.anc_up {w : World μ} (hw : Inv w) {i a : Nat} (h : Anc w i a) : ∀ (c ca : Cls μ), w[i]? = some c → w[a]? = some ca → ca.isType = true →
    c.isType = true := by
  induction h with
  | refl i _ => intro c ca h1 h2 ht; rw [h1] at h2; cases h2; exact ht
  | step i b a c hi hb hr ih =>
    intro c' ca h1 h2 ht
    rw [hi] at h1; cases h1
    obtain ⟨cb, hcb⟩ : ∃ cb, w[b]? = some cb := ⟨_, List.getElem?_eq_getElem (anc_lt w hr)⟩
    exact hw.up i c hi b hb cb hcb (ih cb ca hcb h2 ht)

/-- The linearisation of an ancestor is kept in order. -/
theorem Inv.sub {w : World μ} (hw : Inv w) {i a : Nat} (h : Anc w i a) : ∀ (c ca : Cls μ), w[i]? = some c → w[a]? = some ca → ca.mro.Sublist c.mro := by
  induction h with
  | refl i _ => intro c ca h1 h2; rw [h1] at h2; cases h2; exact List.Sublist.refl _
  | step i b a c hi hb hr ih =>
    intro c' ca h1 h2
    rw [hi] at h1; cases h1
    obtain ⟨cb, hcb⟩ : ∃ cb, w[b]? = some cb := ⟨_, List.getElem?_eq_getElem (anc_lt w hr)⟩
    exact (ih cb ca hcb h2).trans (hw.order i c hi b hb cb hcb)

theorem getElem?_snoc (w : World μ) (x : Cls μ) (i : Nat) (c : Cls μ) (h : (w ++ [x])[i]? = some c) :
    (i < w.length ∧ w[i]? = some c) ∨ (i = w.length ∧ c = x) := by
  by_cases hi : i < w.length
  · rw [List.getElem?_append_left hi] at h; exact Or.inl ⟨hi, h⟩
  · have hl := (List.getElem?_eq_some_iff.1 h).1
    simp at hl
    have : i = w.length := by omega
    subst this
    simp at h
    exact Or.inr ⟨rfl, h.symm⟩

theorem get_old {w : World μ} {x : Cls μ} {b : Nat} {cb : Cls μ} (hb : b < w.length) (h : (w ++ [x])[b]? = some cb) : w[b]? = some cb := by
  rwa [List.getElem?_append_left hb] at h

/-- The linearisation that a new class gets. -/
theorem mroOf_spec (w : World μ) (hw : Inv w) (bases mro : List Nat) (h : mroOf w w.length bases = some mro) (x : Cls μ) (hx : x.bases = bases) :
    (∀ b ∈ bases, b < w.length) ∧ (∀ a, a ∈ mro ↔ Anc (w ++ [x]) w.length a) ∧ (∃ r, mro = w.length :: r) ∧
    (∀ b ∈ bases, ∀ cb : Cls μ, w[b]? = some cb → cb.mro.Sublist mro) ∧ mro.Nodup := by
  unfold mroOf at h
  cases hb : basesMro w bases with
  | none => rw [hb] at h; cases h
  | some ss =>
    rw [hb] at h
    obtain ⟨r, hr, rfl⟩ := Option.map_eq_some_iff.1 h
    obtain ⟨hs, hlt⟩ := basesMro_spec w bases ss hb
    obtain ⟨h1, h2, h3⟩ := merge_spec _ _ _ hr
    have hxi : (w ++ [x])[w.length]? = some x := by simp
    have hmem : ∀ a, a ∈ r ↔ ∃ b ∈ bases, Anc w b a := by
      intro a
      rw [h1]
      constructor
      · rintro ⟨s, hs', ha⟩
        rcases List.mem_append.1 hs' with hs' | hs'
        · obtain ⟨b, hb', c, hc, rfl⟩ := (hs s).1 hs'
          exact ⟨b, hb', (hw.mem b c hc a).1 ha⟩
        · simp at hs'; subst hs'
          exact ⟨a, ha, .refl a (hlt a ha)⟩
      · rintro ⟨b, hb', ha⟩
        obtain ⟨c, hc⟩ : ∃ c, w[b]? = some c := ⟨_, List.getElem?_eq_getElem (hlt b hb')⟩
        exact ⟨c.mro, List.mem_append.2 (Or.inl ((hs _).2 ⟨b, hb', c, hc, rfl⟩)), (hw.mem b c hc a).2 ha⟩
    refine ⟨hlt, ?_, ⟨r, rfl⟩, ?_, ?_⟩
    · intro a
      rw [List.mem_cons, hmem]
      constructor
      · rintro (rfl | ⟨b, hb', ha⟩)
        · exact .refl _ (by simp)
        · exact .step _ b a x hxi (by rw [hx]; exact hb') (anc_append w x ha)
      · intro ha
        cases ha with
        | refl _ _ => exact Or.inl rfl
        | step _ b _ c hc hb' ha' =>
          rw [hxi] at hc; cases hc
          rw [hx] at hb'
          exact Or.inr ⟨b, hb', hw.anc_of_append x ha' (hlt b hb')⟩
    · intro b hb' cb hcb
      exact (h3 _ (List.mem_append.2 (Or.inl ((hs _).2 ⟨b, hb', cb, hcb, rfl⟩)))).cons _
    · refine List.nodup_cons.2 ⟨?_, h2⟩
      intro hm
      obtain ⟨b, hb', ha⟩ := (hmem _).1 hm
      have := hw.anc_le ha
      have := hlt b hb'
      omega

theorem nodup_foldl_set {d : Dict String Unit} (hd : d.Nodup) (l : Dict String Func) :
    (l.foldl (fun acc kv => acc.set kv.1 ()) d).Nodup := by
  induction l generalizing d with
  | nil => exact hd
  | cons kv l ih => exact ih (Dict.nodup_set hd _ _)

theorem lookup_some {β : Type} (w : World μ) (attr : Cls μ → Option β) : ∀ (is : List Nat) (v : β), lookup w attr is = some v →
    ∃ i ∈ is, ∃ c, w[i]? = some c ∧ attr c = some v := by
  intro is v
  induction is with
  | nil => intro h; cases h
  | cons i is ih =>
    intro h
    unfold lookup at h
    cases hi : (w[i]?).bind attr with
    | none =>
      rw [hi] at h
      obtain ⟨j, hj, c, hc, hv⟩ := ih h
      exact ⟨j, by simp [hj], c, hc, hv⟩
    | some v' =>
      rw [hi] at h; cases h
      obtain ⟨c, hc, hv⟩ := Option.bind_eq_some_iff.1 hi
      exact ⟨i, by simp, c, hc, hv⟩

theorem nodup_inheritMessages (w : World μ) (hw : Inv w) : ∀ (bs : List Nat) (acc : Dict String μ), acc.Nodup → (inheritMessages w acc bs).Nodup := by
  intro bs
  induction bs with
  | nil => intro acc h; exact h
  | cons b bs ih =>
    intro acc h
    unfold inheritMessages
    cases classAttr w Cls.messages b with
    | none => exact ih _ h
    | some m => exact ih _ (Dict.nodup_update h m)

theorem nodup_inheritValidators (w : World μ) : ∀ (bs : List Nat) (acc : Dict String Unit), acc.Nodup →
    (inheritValidators w acc bs).Nodup := by
  intro bs
  induction bs with
  | nil => intro acc h; exact h
  | cons b bs ih =>
    intro acc h
    unfold inheritValidators
    cases classAttr w Cls.validators b with
    | none => exact ih _ h
    | some m => exact ih _ (Dict.nodup_update h m)

/-- The class that a statement adds. -/
def newCls (w : World μ) (d : Decl μ) (mro : List Nat) : Cls μ :=
  if isTypeClass w d then
    { bases := d.bases, isType := true, own := d.own, ownMessages := d.messages, mro
      messages := some (match d.messages with
        | some m => (inheritMessages w [] d.bases.reverse).update m
        | none => inheritMessages w [] d.bases.reverse)
      validators := some (d.own.foldl (fun acc kv => acc.set kv.1 ()) (inheritValidators w [] d.bases.reverse)) }
  else { bases := d.bases, isType := false, own := d.own, ownMessages := d.messages, mro, messages := d.messages, validators := none }

theorem define_eq (w w' : World μ) (d : Decl μ) (h : define w d = some w') : ∃ mro, mroOf w w.length d.bases = some mro ∧ w' = w ++ [newCls w d mro] := by
  unfold define at h
  cases hm : mroOf w w.length d.bases with
  | none => rw [hm] at h; cases h
  | some mro =>
    rw [hm] at h
    refine ⟨mro, rfl, ?_⟩
    unfold newCls
    by_cases ht : isTypeClass w d = true
    · simp only [ht, if_true] at h ⊢; cases h; rfl
    · simp only [ht, if_false] at h ⊢; cases h; rfl

theorem inv_define (w w' : World μ) (hw : Inv w) (d : Decl μ) (hd : d.Ok) (h : define w d = some w') : Inv w' := by
  obtain ⟨mro, hm, rfl⟩ := define_eq w w' d h
  have hb : (newCls w d mro).bases = d.bases := by unfold newCls; split <;> rfl
  have hmro : (newCls w d mro).mro = mro := by unfold newCls; split <;> rfl
  have hown : (newCls w d mro).own = d.own := by unfold newCls; split <;> rfl
  have hty : (newCls w d mro).isType = isTypeClass w d := by
    unfold newCls
    by_cases ht : isTypeClass w d = true
    · rw [if_pos ht, ht]
    · rw [if_neg ht]; simpa using ht
  obtain ⟨s1, s2, s3, s4, s5⟩ := mroOf_spec w hw d.bases mro hm (newCls w d mro) hb
  constructor
  · intro i c hc b hb'
    rcases getElem?_snoc _ _ _ _ hc with ⟨hi, hc'⟩ | ⟨rfl, rfl⟩
    · exact hw.bases i c hc' b hb'
    · rw [hb] at hb'; exact s1 b hb'
  · intro i c hc a
    rcases getElem?_snoc _ _ _ _ hc with ⟨hi, hc'⟩ | ⟨rfl, rfl⟩
    · rw [hw.mem i c hc' a]
      exact ⟨anc_append w _, fun h => hw.anc_of_append _ h hi⟩
    · rw [hmro]; exact s2 a
  · intro i c hc
    rcases getElem?_snoc _ _ _ _ hc with ⟨hi, hc'⟩ | ⟨rfl, rfl⟩
    · exact hw.head i c hc'
    · rw [hmro]; exact s3
  · intro i c hc b hb' cb hcb
    rcases getElem?_snoc _ _ _ _ hc with ⟨hi, hc'⟩ | ⟨rfl, rfl⟩
    · exact hw.order i c hc' b hb' cb (get_old (Nat.lt_trans (hw.bases i c hc' b hb') hi) hcb)
    · rw [hmro]; rw [hb] at hb'; exact s4 b hb' cb (get_old (s1 b hb') hcb)
  · intro i c hc
    rcases getElem?_snoc _ _ _ _ hc with ⟨hi, hc'⟩ | ⟨rfl, rfl⟩
    · exact hw.nodup i c hc'
    · rw [hmro]; exact s5
  · intro i c hc b hb' cb hcb ht
    rcases getElem?_snoc _ _ _ _ hc with ⟨hi, hc'⟩ | ⟨rfl, rfl⟩
    · exact hw.up i c hc' b hb' cb (get_old (Nat.lt_trans (hw.bases i c hc' b hb') hi) hcb) ht
    · rw [hb] at hb'
      have hcb' := get_old (s1 b hb') hcb
      rw [hty]; unfold isTypeClass
      simp only [Bool.or_eq_true, List.any_eq_true]
      exact Or.inr ⟨b, hb', by rw [hcb']; exact ht⟩
  · intro i c hc
    rcases getElem?_snoc _ _ _ _ hc with ⟨hi, hc'⟩ | ⟨rfl, rfl⟩
    · exact hw.own i c hc'
    · rw [hown]; exact hd.own
  · intro i c hc ht
    rcases getElem?_snoc _ _ _ _ hc with ⟨hi, hc'⟩ | ⟨rfl, rfl⟩
    · exact hw.plain i c hc' ht
    · rw [hty] at ht; unfold newCls; rw [if_neg (by simp [ht])]
  · intro i c hc ht
    rcases getElem?_snoc _ _ _ _ hc with ⟨hi, hc'⟩ | ⟨rfl, rfl⟩
    · exact hw.typed i c hc' ht
    · rw [hty] at ht; unfold newCls; rw [if_pos ht]; exact ⟨rfl, rfl⟩
  · intro i c hc m hm'
    rcases getElem?_snoc _ _ _ _ hc with ⟨hi, hc'⟩ | ⟨rfl, rfl⟩
    · exact hw.msgs i c hc' m hm'
    · unfold newCls at hm'
      by_cases ht : isTypeClass w d = true
      · rw [if_pos ht] at hm'
        have hn := nodup_inheritMessages w hw d.bases.reverse [] (by unfold Dict.Nodup; simp)
        cases hdm : d.messages with
        | none => rw [hdm] at hm'; cases hm'; exact hn
        | some m0 => rw [hdm] at hm'; cases hm'; exact Dict.nodup_update hn _
      · rw [if_neg ht] at hm'; exact hd.messages m hm'
  · intro i c hc m hm'
    rcases getElem?_snoc _ _ _ _ hc with ⟨hi, hc'⟩ | ⟨rfl, rfl⟩
    · exact hw.vals i c hc' m hm'
    · unfold newCls at hm'
      by_cases ht : isTypeClass w d = true
      · rw [if_pos ht] at hm'
        cases hm'
        exact nodup_foldl_set (nodup_inheritValidators w _ _ (by unfold Dict.Nodup; simp)) _
      · rw [if_neg ht] at hm'; cases hm'

theorem inv_nil : Inv ([] : World μ) := by constructor <;> intro i c h <;> simp at h

theorem inv_defineAll : ∀ (ds : List (Decl μ)) (w w' : World μ), Inv w → (∀ d ∈ ds, d.Ok) → defineAll w ds = some w' → Inv w' := by
  intro ds
  induction ds with
  | nil => intro w w' hw _ h; cases h; exact hw
  | cons d ds ih =>
    intro w w' hw hd h
    unfold defineAll at h
    cases hx : define w d with
    | none => rw [hx] at h; cases h
    | some w1 =>
      rw [hx] at h
      exact ih w1 w' (inv_define w w1 hw d (hd d (by simp)) hx) (fun d' h' => hd d' (by simp [h'])) h

/-- A world that class statements produce. -/
def Reachable (w : World μ) : Prop := ∃ ds : List (Decl μ), (∀ d ∈ ds, d.Ok) ∧ defineAll [] ds = some w

theorem Reachable.inv {w : World μ} (h : Reachable w) : Inv w := by
  obtain ⟨ds, hd, h⟩ := h
  exact inv_defineAll ds [] w inv_nil hd h

theorem lookup_append {β : Type} (w : World μ) (x : Cls μ) (attr : Cls μ → Option β) : ∀ (is : List Nat), (∀ i ∈ is, i < w.length) →
    lookup (w ++ [x]) attr is = lookup w attr is := by
  intro is
  induction is with
  | nil => intro _; rfl
  | cons i is ih =>
    intro h
    unfold lookup
    rw [List.getElem?_append_left (h i (by simp)), ih (fun j hj => h j (by simp [hj]))]

theorem Inv.mro_lt {w : World μ} (hw : Inv w) {i : Nat} {c : Cls μ} (hc : w[i]? = some c) : ∀ a ∈ c.mro, a < w.length := by
  intro a ha
  have := hw.anc_le ((hw.mem i c hc a).1 ha)
  have := (List.getElem?_eq_some_iff.1 hc).1
  omega

/-- A later class statement changes no attribute of a class. -/
theorem Inv.classAttr_append {β : Type} {w : World μ} (hw : Inv w) (x : Cls μ) (attr : Cls μ → Option β) (j : Nat) (hj : j < w.length) :
    classAttr (w ++ [x]) attr j = classAttr w attr j := by
  unfold classAttr
  rw [List.getElem?_append_left hj]
  have hc : w[j]? = some w[j] := List.getElem?_eq_getElem hj
  rw [hc]
  exact lookup_append w x attr _ (hw.mro_lt hc)

theorem Inv.classAttr_self {β : Type} {w : World μ} (hw : Inv w) (attr : Cls μ → Option β) {i : Nat} {c : Cls μ} (hc : w[i]? = some c) {v : β}
    (hv : attr c = some v) : classAttr w attr i = some v := by
  obtain ⟨r, hr⟩ := hw.head i c hc
  unfold classAttr
  rw [hc]
  simp only [hr]
  unfold lookup
  rw [hc]
  simp only [Option.bind_some, hv]

theorem lookup_none {β : Type} (w : World μ) (attr : Cls μ → Option β) : ∀ (is : List Nat), (∀ i ∈ is, ∀ c, w[i]? = some c → attr c = none) →
    lookup w attr is = none := by
  intro is
  induction is with
  | nil => intro _; rfl
  | cons i is ih =>
    intro h
    unfold lookup
    have : (w[i]?).bind attr = none := by
      cases hi : w[i]? with
      | none => rfl
      | some c => exact h i (by simp) c hi
    rw [this]
    exact ih fun j hj => h j (by simp [hj])

theorem Inv.plain_names {w : World μ} (hw : Inv w) {i : Nat} {c : Cls μ} (hc : w[i]? = some c) (ht : c.isType = false) : validatorNames w i = [] := by
  unfold validatorNames
  have : classAttr w Cls.validators i = none := by
    unfold classAttr
    rw [hc]
    refine lookup_none w _ _ ?_
    intro a ha ca hca
    refine hw.plain a ca hca ?_
    cases h : ca.isType with
    | false => rfl
    | true =>
      have := hw.anc_up ((hw.mem i c hc a).1 ha) c ca hc hca h
      rw [ht] at this; cases this
  rw [this]; rfl

theorem firsts_cons (seen : List String) (x : String) (r : List String) :
    firsts seen (x :: r) = if x ∈ seen then firsts seen r else x :: firsts (seen ++ [x]) r := rfl

theorem firsts_append (seen a b : List String) : firsts seen (a ++ b) = firsts seen a ++ firsts (seen ++ firsts seen a) b := by
  induction a generalizing seen with
  | nil => simp [firsts]
  | cons x a ih =>
    rw [List.cons_append, firsts_cons, firsts_cons]
    by_cases h : x ∈ seen
    · rw [if_pos h, if_pos h, ih]
    · rw [if_neg h, if_neg h, ih]
      simp

theorem mem_firsts (x : String) (l seen : List String) : x ∈ firsts seen l ↔ x ∈ l ∧ x ∉ seen := by
  induction l generalizing seen with
  | nil => simp [firsts]
  | cons y l ih =>
    unfold firsts
    by_cases h : y ∈ seen
    · rw [if_pos h, ih]
      constructor
      · rintro ⟨h1, h2⟩; exact ⟨by simp [h1], h2⟩
      · rintro ⟨h1, h2⟩
        rcases List.mem_cons.1 h1 with rfl | h1
        · exact absurd h h2
        · exact ⟨h1, h2⟩
    · rw [if_neg h, List.mem_cons, ih]
      constructor
      · rintro (rfl | ⟨h1, h2⟩)
        · exact ⟨by simp, h⟩
        · simp only [List.mem_append, List.mem_singleton, not_or] at h2
          exact ⟨by simp [h1], h2.1⟩
      · rintro ⟨h1, h2⟩
        by_cases e : x = y
        · exact Or.inl e
        · rcases List.mem_cons.1 h1 with h1 | h1
          · exact absurd h1 e
          · exact Or.inr ⟨h1, by simp [h2, e]⟩

theorem keys_foldl_set {γ : Type} (e : Dict String γ) : ∀ (d : Dict String Unit),
    (e.foldl (fun acc kv => acc.set kv.1 ()) d).keys = d.keys ++ firsts d.keys e.keys := by
  induction e with
  | nil => intro d; simp [firsts]
  | cons kv e ih =>
    intro d
    simp only [List.foldl_cons, ih, Dict.keys_cons]
    rw [Dict.keys_set]
    by_cases h : kv.1 ∈ d.keys
    · rw [if_pos h]
      conv => rhs; unfold firsts
      rw [if_pos h]
    · rw [if_neg h]
      conv => rhs; unfold firsts
      rw [if_neg h]; simp

theorem keys_update (d e : Dict String Unit) : (d.update e).keys = d.keys ++ firsts d.keys e.keys := keys_foldl_set e d

theorem keys_inherit (w : World μ) : ∀ (bs : List Nat) (acc : Dict String Unit),
    (inheritValidators w acc bs).keys = acc.keys ++ firsts acc.keys (bs.flatMap (validatorNames w)) := by
  intro bs
  induction bs with
  | nil => intro acc; simp [inheritValidators, firsts]
  | cons b bs ih =>
    intro acc
    unfold inheritValidators
    rw [List.flatMap_cons, firsts_append]
    unfold validatorNames
    cases h : classAttr w Cls.validators b with
    | none =>
      simp only []
      rw [ih]
      simp [firsts]
      rfl
    | some m =>
      simp only []
      rw [ih, keys_update]
      simp only [Option.getD_some, List.append_assoc]
      rfl

theorem get?_inheritMessages (w : World μ) (hn : ∀ b m, classAttr w Cls.messages b = some m → m.Nodup) (k : String) : ∀ (bs : List Nat) (acc : Dict String μ),
    (inheritMessages w acc bs).get? k = (bs.reverse.findSome? fun b => classMessage w b k).or (acc.get? k) := by
  intro bs
  induction bs with
  | nil => intro acc; simp [inheritMessages]
  | cons b bs ih =>
    intro acc
    unfold inheritMessages
    rw [List.reverse_cons, List.findSome?_append]
    cases h : classAttr w Cls.messages b with
    | none =>
      simp only []
      rw [ih]
      have : classMessage w b k = none := by unfold classMessage; rw [h]; rfl
      simp [this]
    | some m =>
      simp only []
      rw [ih, Dict.get?_update _ _ (hn b m h)]
      have : classMessage w b k = m.get? k := by unfold classMessage; rw [h]; rfl
      simp only [List.findSome?_cons, List.findSome?_nil, this]
      cases hm : m.get? k <;> simp

theorem Inv.attr_nodup {w : World μ} (hw : Inv w) (b : Nat) (m : Dict String μ) (h : classAttr w Cls.messages b = some m) : m.Nodup := by
  unfold classAttr at h
  cases hb : w[b]? with
  | none => rw [hb] at h; cases h
  | some c =>
    rw [hb] at h
    obtain ⟨i, -, c', hc', hm⟩ := lookup_some w _ _ _ h
    exact hw.msgs i c' hc' m hm

/-- What a type class collects, in terms of its bases. -/
structure Collected (w : World μ) : Prop where
  names : ∀ (i : Nat) (c : Cls μ), w[i]? = some c → c.isType = true →
    validatorNames w i = firsts [] (c.bases.reverse.flatMap (validatorNames w) ++ c.own.keys)
  messages : ∀ (i : Nat) (c : Cls μ), w[i]? = some c → c.isType = true → ∀ k,
    classMessage w i k = (c.ownMessages.bind (Dict.get? · k)).or (c.bases.findSome? fun b => classMessage w b k)

theorem collected_define (w w' : World μ) (hw : Inv w) (hc : Collected w) (d : Decl μ) (hd : d.Ok) (h : define w d = some w') : Collected w' := by
  have hw' := inv_define w w' hw d hd h
  obtain ⟨mro, hm, rfl⟩ := define_eq w w' d h
  have hb : (newCls w d mro).bases = d.bases := by unfold newCls; split <;> rfl
  have hown : (newCls w d mro).own = d.own := by unfold newCls; split <;> rfl
  have hownm : (newCls w d mro).ownMessages = d.messages := by unfold newCls; split <;> rfl
  have hlt := (mroOf_spec w hw d.bases mro hm (newCls w d mro) hb).1
  have hty : (newCls w d mro).isType = isTypeClass w d := by
    unfold newCls
    by_cases ht : isTypeClass w d = true
    · rw [if_pos ht, ht]
    · rw [if_neg ht]; simpa using ht
  have hnames : ∀ bs : List Nat, (∀ b ∈ bs, b < w.length) →
      bs.flatMap (validatorNames (w ++ [newCls w d mro])) = bs.flatMap (validatorNames w) := by
    intro bs hbs
    induction bs with
    | nil => rfl
    | cons b bs ih =>
      rw [List.flatMap_cons, List.flatMap_cons, ih fun b' h' => hbs b' (by simp [h'])]
      have : validatorNames (w ++ [newCls w d mro]) b = validatorNames w b := by
        unfold validatorNames; rw [hw.classAttr_append _ _ b (hbs b (by simp))]
      rw [this]
  have hmsgs : ∀ (k : String) (bs : List Nat), (∀ b ∈ bs, b < w.length) →
      bs.findSome? (fun b => classMessage (w ++ [newCls w d mro]) b k) = bs.findSome? fun b => classMessage w b k := by
    intro k bs hbs
    induction bs with
    | nil => rfl
    | cons b bs ih =>
      rw [List.findSome?_cons, List.findSome?_cons, ih fun b' h' => hbs b' (by simp [h'])]
      have : classMessage (w ++ [newCls w d mro]) b k = classMessage w b k := by
        unfold classMessage; rw [hw.classAttr_append _ _ b (hbs b (by simp))]
      rw [this]
  constructor
  · intro i c hci ht
    rcases getElem?_snoc _ _ _ _ hci with ⟨hi, hc'⟩ | ⟨rfl, rfl⟩
    · have hlt' : ∀ b ∈ c.bases.reverse, b < w.length := fun b hb' => Nat.lt_trans (hw.bases i c hc' b (by simpa using hb')) hi
      rw [hnames _ hlt', ← hc.names i c hc' ht]
      unfold validatorNames; rw [hw.classAttr_append _ _ i hi]
    · rw [hb, hown, hnames _ (fun b hb' => hlt b (by simpa using hb'))]
      have hT := hty.symm.trans ht
      have hv : (newCls w d mro).validators =
          some (d.own.foldl (fun acc kv => acc.set kv.1 ()) (inheritValidators w [] d.bases.reverse)) := by
        unfold newCls; rw [if_pos hT]
      unfold validatorNames
      rw [hw'.classAttr_self Cls.validators hci hv]
      simp only [Option.getD_some]
      rw [keys_foldl_set, keys_inherit, firsts_append]
      simp
      rfl
  · intro i c hci ht k
    rcases getElem?_snoc _ _ _ _ hci with ⟨hi, hc'⟩ | ⟨rfl, rfl⟩
    · have hlt' : ∀ b ∈ c.bases, b < w.length := fun b hb' => Nat.lt_trans (hw.bases i c hc' b hb') hi
      rw [hmsgs k _ hlt', ← hc.messages i c hc' ht k]
      unfold classMessage; rw [hw.classAttr_append _ _ i hi]
    · rw [hb, hownm, hmsgs k _ hlt]
      have hT := hty.symm.trans ht
      have hin : ((inheritMessages w [] d.bases.reverse).get? k) = d.bases.findSome? fun b => classMessage w b k := by
        rw [get?_inheritMessages w hw.attr_nodup]; simp
      cases hdm : d.messages with
      | none =>
        have hv : (newCls w d mro).messages = some (inheritMessages w [] d.bases.reverse) := by
          unfold newCls; rw [if_pos hT, hdm]
        unfold classMessage
        rw [hw'.classAttr_self Cls.messages hci hv]
        simp only [Option.bind_some, Option.bind_none, Option.none_or]
        exact hin
      | some m =>
        have hv : (newCls w d mro).messages = some ((inheritMessages w [] d.bases.reverse).update m) := by
          unfold newCls; rw [if_pos hT, hdm]
        unfold classMessage
        rw [hw'.classAttr_self Cls.messages hci hv]
        simp only [Option.bind_some]
        rw [Dict.get?_update _ _ (hd.messages m hdm), hin]
        rfl

theorem collected_nil : Collected ([] : World μ) := by constructor <;> intro i c h <;> simp at h

theorem collected_defineAll : ∀ (ds : List (Decl μ)) (w w' : World μ), Inv w → Collected w → (∀ d ∈ ds, d.Ok) → defineAll w ds = some w' →
    Collected w' := by
  intro ds
  induction ds with
  | nil => intro w w' _ hc _ h; cases h; exact hc
  | cons d ds ih =>
    intro w w' hw hc hd h
    unfold defineAll at h
    cases hx : define w d with
    | none => rw [hx] at h; cases h
    | some w1 =>
      rw [hx] at h
      exact ih w1 w' (inv_define w w1 hw d (hd d (by simp)) hx) (collected_define w w1 hw hc d (hd d (by simp)) hx)
        (fun d' h' => hd d' (by simp [h'])) h

theorem Reachable.collected {w : World μ} (h : Reachable w) : Collected w := by
  obtain ⟨ds, hd, h⟩ := h
  exact collected_defineAll ds [] w inv_nil collected_nil hd h

/-! ## The property -/

/-- **C80.** The type-level validators of a type class: those of its bases, the rightmost base first, then those of its own body; a name that comes
up again keeps its first place. -/
theorem C80_validator_order (w : World μ) (hw : Reachable w) (i : Nat) (c : Cls μ) (hc : w[i]? = some c) (ht : c.isType = true) :
    validatorNames w i = firsts [] (c.bases.reverse.flatMap (validatorNames w) ++ c.own.keys) :=
  hw.collected.names i c hc ht

/-- **C80.** The validators that run for a type are exactly the `validate_…` functions written in its class or in a type class that it derives from,
each name once.  Those of plain mixins are left out. -/
theorem C80_validators_exactly (w : World μ) (hw : Reachable w) (i : Nat) (c : Cls μ) (hc : w[i]? = some c) :
    (validatorNames w i).Nodup ∧
    ∀ n, n ∈ validatorNames w i ↔ ∃ a ca, Anc w i a ∧ w[a]? = some ca ∧ ca.isType = true ∧ n ∈ ca.own.keys := by
  have hi := hw.inv
  constructor
  · cases ht : c.isType with
    | false => rw [hi.plain_names hc ht]; exact List.nodup_nil
    | true =>
      obtain ⟨-, hv⟩ := hi.typed i c hc ht
      obtain ⟨v, hv⟩ := Option.isSome_iff_exists.1 hv
      unfold validatorNames
      rw [hi.classAttr_self Cls.validators hc hv]
      exact hi.vals i c hc v hv
  · intro n
    induction i using Nat.strongRecOn generalizing c with
    | ind i ih =>
      cases ht : c.isType with
      | false =>
        rw [hi.plain_names hc ht]
        constructor
        · intro h; cases h
        · rintro ⟨a, ca, ha, hca, hta, -⟩
          have := hi.anc_up ha c ca hc hca hta
          rw [ht] at this; cases this
      | true =>
        rw [C80_validator_order w hw i c hc ht, mem_firsts]
        simp only [List.mem_append, List.mem_flatMap, List.mem_reverse, List.not_mem_nil, not_false_eq_true, and_true]
        constructor
        · rintro (⟨b, hb, hn⟩ | hn)
          · have hlt := hi.bases i c hc b hb
            obtain ⟨cb, hcb⟩ : ∃ cb, w[b]? = some cb := ⟨_, List.getElem?_eq_getElem (Nat.lt_trans hlt (List.getElem?_eq_some_iff.1 hc).1)⟩
            obtain ⟨a, ca, ha, h3⟩ := (ih b hlt _ hcb).1 hn
            exact ⟨a, ca, .step i b a c hc hb ha, h3⟩
          · exact ⟨i, c, .refl i (List.getElem?_eq_some_iff.1 hc).1, hc, ht, hn⟩
        · rintro ⟨a, ca, ha, hca, hta, hn⟩
          cases ha with
          | refl _ _ => rw [hc] at hca; cases hca; exact Or.inr hn
          | step _ b _ c' hc' hb ha' =>
            rw [hc] at hc'; cases hc'
            have hlt := hi.bases i c hc b hb
            obtain ⟨cb, hcb⟩ : ∃ cb, w[b]? = some cb := ⟨_, List.getElem?_eq_getElem (anc_lt w ha')⟩
            exact Or.inl ⟨b, hb, (ih b hlt _ hcb).2 ⟨a, ca, ha', hca, hta, hn⟩⟩

theorem lookup_first {β : Type} (w : World μ) (attr : Cls μ → Option β) : ∀ (is : List Nat) (v : β), lookup w attr is = some v →
    ∃ pre a post c, is = pre ++ a :: post ∧ w[a]? = some c ∧ attr c = some v ∧ ∀ b ∈ pre, ∀ cb, w[b]? = some cb → attr cb = none := by
  intro is v
  induction is with
  | nil => intro h; cases h
  | cons i is ih =>
    intro h
    unfold lookup at h
    cases hi : (w[i]?).bind attr with
    | none =>
      rw [hi] at h
      obtain ⟨pre, a, post, c, rfl, h1, h2, h3⟩ := ih h
      refine ⟨i :: pre, a, post, c, rfl, h1, h2, ?_⟩
      intro b hb cb hcb
      rcases List.mem_cons.1 hb with rfl | hb
      · rw [hcb] at hi; exact hi
      · exact h3 b hb cb hcb
    | some v' =>
      rw [hi] at h; cases h
      obtain ⟨c, hc, hv⟩ := Option.bind_eq_some_iff.1 hi
      exact ⟨[], i, is, c, rfl, hc, hv, by intro b hb; cases hb⟩

theorem lookup_isSome {β : Type} (w : World μ) (attr : Cls μ → Option β) : ∀ (is : List Nat) (i : Nat) (c : Cls μ), i ∈ is → w[i]? = some c →
    (attr c).isSome = true → ∃ v, lookup w attr is = some v := by
  intro is i c
  induction is with
  | nil => intro h; cases h
  | cons j is ih =>
    intro h hc hv
    unfold lookup
    cases hj : (w[j]?).bind attr with
    | some v => exact ⟨v, rfl⟩
    | none =>
      rcases List.mem_cons.1 h with rfl | h
      · rw [hc] at hj; simp only [Option.bind_some] at hj; rw [hj] at hv; cases hv
      · exact ih h hc hv

/-- **C80.** Overriding: the function that runs under each of these names is one written in the class or an ancestor, and no class in between —
derived from that ancestor and an ancestor of (or equal to) the class itself — writes the name again.  In particular the class's own function wins.
Functions written in type classes are prepared for `self, value, context`. -/
theorem C80_overriding (w : World μ) (hw : Reachable w) (i : Nat) (c : Cls μ) (hc : w[i]? = some c) (n : String) (hn : n ∈ validatorNames w i) :
    ∃ r a ca f, classAttr w (method n) i = some r ∧ Anc w i a ∧ w[a]? = some ca ∧ ca.own.get? n = some f ∧
      r = (if ca.isType then prepare (.user f) 3 else .user f) ∧
      ∀ b cb, Anc w i b → Anc w b a → b ≠ a → w[b]? = some cb → n ∉ cb.own.keys := by
  have hi := hw.inv
  obtain ⟨a0, ca0, ha0, hca0, -, hn0⟩ := ((C80_validators_exactly w hw i c hc).2 n).1 hn
  have hs : (method n ca0).isSome = true := by
    unfold method
    rw [Option.isSome_map]
    exact (Dict.get?_isSome _ _).2 hn0
  obtain ⟨r, hr⟩ := lookup_isSome w (method n) c.mro a0 ca0 ((hi.mem i c hc a0).2 ha0) hca0 hs
  obtain ⟨pre, a, post, ca, hmro, hca, hra, hpre⟩ := lookup_first w (method n) _ _ hr
  have hna : (ca.own.get? n).isSome = true := by
    unfold method at hra
    cases h : ca.own.get? n with
    | none => rw [h] at hra; cases hra
    | some f => rfl
  obtain ⟨f, hf⟩ := Option.isSome_iff_exists.1 hna
  refine ⟨r, a, ca, f, ?_, (hi.mem i c hc a).1 (by rw [hmro]; simp), hca, hf, ?_, ?_⟩
  · unfold classAttr; rw [hc]; exact hr
  · unfold method at hra; rw [hf] at hra; simpa using hra.symm
  · intro b cb hib hba hne hcb hnb
    have hsub := hi.sub hib c cb hc hcb
    obtain ⟨rest, hhead⟩ := hi.head b cb hcb
    have harest : a ∈ rest := by
      have := (hi.mem b cb hcb a).2 hba
      rw [hhead] at this
      rcases List.mem_cons.1 this with h | h
      · exact absurd h.symm hne
      · exact h
    have hbpre : b ∈ pre := by
      have hp : [b, a].Sublist c.mro := by
        refine List.Sublist.trans ?_ hsub
        rw [hhead]
        exact (List.singleton_sublist.2 harest).cons_cons b
      have hnd := hi.nodup i c hc
      rw [hmro] at hp hnd
      by_cases hbp : b ∈ pre
      · exact hbp
      · exfalso
        obtain ⟨l1, l2, e, h1, h2⟩ := List.sublist_append_iff.1 hp
        cases l1 with
        | cons y l1 =>
          injection e with e1 e2
          subst e1
          exact hbp (h1.subset (by simp))
        | nil =>
          simp only [List.nil_append] at e
          subst e
          have hn2 := (List.nodup_append.1 hnd).2.1
          rw [List.nodup_cons] at hn2
          cases h2 with
          | cons _ h2 => exact hn2.1 (h2.subset (by simp))
          | cons_cons _ h2 => exact hne rfl
    have := hpre b hbpre cb hcb
    unfold method at this
    have hg := (Dict.get?_isSome cb.own n).2 hnb
    cases h : cb.own.get? n with
    | none => rw [h] at hg; cases hg
    | some f' => rw [h] at this; cases this

/-- **C80.** Messages: a message given to the constructor wins, then one in the class body, then that of the leftmost base that has one. -/
theorem C80_messages (w : World μ) (hw : Reachable w) (i : Nat) (c : Cls μ) (hc : w[i]? = some c) (ht : c.isType = true) (given : Dict String μ)
    (hg : given.Nodup) (k : String) :
    (instanceMessages w i given).get? k =
      (given.get? k).or ((c.ownMessages.bind (Dict.get? · k)).or (c.bases.findSome? fun b => classMessage w b k)) := by
  rw [← hw.collected.messages i c hc ht k]
  unfold instanceMessages
  rw [Dict.get?_update _ _ hg]
  congr 1
  unfold classMessage
  cases classAttr w Cls.messages i with
  | none => rfl
  | some m => rfl

/-- **C80.** Defining a further class — a subclass, for instance — changes neither the validators nor the messages of an existing one. -/
theorem C80_later_classes_change_nothing (w w' : World μ) (hw : Reachable w) (d : Decl μ) (h : define w d = some w') (i : Nat)
    (hi : i < w.length) (given : List Func) (msgs : Dict String μ) :
    instanceValidators w' i given = instanceValidators w i given ∧ instanceMessages w' i msgs = instanceMessages w i msgs := by
  obtain ⟨mro, -, rfl⟩ := define_eq w w' d h
  unfold instanceValidators instanceMessages validatorNames
  rw [hw.inv.classAttr_append _ _ i hi, hw.inv.classAttr_append _ _ i hi]
  refine ⟨?_, rfl⟩
  congr 1
  apply List.map_congr_left
  intro n _
  rw [hw.inv.classAttr_append _ _ i hi]

/-! ## What a user might expect and does not get -/

/-- `Base` with a message and a validator, `Left(Base)`, `Right(Base)` that overrides both, `Both(Left, Right)`. -/
def diamond : List (Decl String) :=
  [ { bases := [], root := true, messages := some [("convert", "base")], own := [("validate_x", { params := ["self", "value", "context"] })] },
    { bases := [0] },
    { bases := [0], messages := some [("convert", "right")], own := [("validate_x", { params := ["self", "value"] })] },
    { bases := [1, 2] } ]

/-- **C80.** In a diamond the overriding *validator* is found, by Python's rules, but the overriding *message* is not: the message of the
common base, copied into the left base, wins. -/
theorem C80_counterexample_diamond : ∃ w, defineAll [] diamond = some w ∧
    (classAttr w (method "validate_x") 3).map Ready.spec = some [] ∧
    (classAttr w (method "validate_x") 1).map Ready.spec = some ["self", "value", "context"] ∧
    classMessage w 3 "convert" = some "base" ∧ classMessage w 2 "convert" = some "right" := by
  refine ⟨_, rfl, rfl, rfl, rfl, rfl⟩

/-- A plain mixin with a validator, before a type class. -/
def mixin : List (Decl String) :=
  [ { bases := [], root := true, messages := some [], own := [("validate_x", { params := ["self", "value"] })] },
    { bases := [], messages := some [("convert", "mixin")], own := [("validate_y", { params := ["self", "value"] })] },
    { bases := [1, 0] } ]

/-- **C80.** A validator written in a plain mixin never runs, though its messages are used. -/
theorem C80_counterexample_mixin : ∃ w, defineAll [] mixin = some w ∧ validatorNames w 2 = ["validate_x"] ∧
    (classAttr w (method "validate_y") 2).isSome = true ∧ classMessage w 2 "convert" = some "mixin" := by
  refine ⟨_, rfl, rfl, rfl, rfl⟩

/-- **C80.** The validators of an instance: those of its class in the order of `C80_validator_order`, then the functions given to the constructor in
the order given.  Each of the latter is called with the value and the context: a plain function of one parameter receives the value alone, one of two parameters
both. -/
theorem C80_instance_validators (w : World μ) (i : Nat) (given : List Func) :
    (instanceValidators w i given).take (validatorNames w i).length = (validatorNames w i).map (fun n => classAttr w (method n) i) ∧
    (instanceValidators w i given).length = (validatorNames w i).length + given.length ∧
    ∀ k f, given[k]? = some f → f.varargs = false → f.bound = false →
      ∃ r : Ready, (instanceValidators w i given)[(validatorNames w i).length + k]? = some (some r) ∧
        ∀ {α : Type} (isZero : α → Bool) (value ctx : α),
          (∀ p, f.params = [p] → r.call isZero [value, ctx] none = some [(some p, value)]) ∧
          (∀ p q, f.params = [p, q] → r.call isZero [value, ctx] none = some [(some p, value), (some q, ctx)]) := by
  have hlen : ((validatorNames w i).map fun n => classAttr w (method n) i).length = (validatorNames w i).length := by simp
  refine ⟨?_, by simp [instanceValidators], ?_⟩
  · unfold instanceValidators
    rw [← hlen, List.take_left']
    rfl
  · intro k f hk hv hb
    refine ⟨prepare (.user f) 2, ?_, ?_⟩
    · unfold instanceValidators
      rw [List.getElem?_append_right (by simp)]
      simp [hk]
    · intro α isZero value ctx
      constructor
      · intro p hp
        simp [prepare, Ready.spec, hp, Ready.call, Func.call, Func.open, hv, hb]
      · intro p q hp
        simp [prepare, Ready.spec, hp, Ready.call, Func.call, Func.open, hv, hb]

/-! The hypotheses are met. -/

theorem diamond_ok : ∀ d ∈ diamond, d.Ok := by
  intro d hd
  simp only [diamond, List.mem_cons, List.not_mem_nil, or_false] at hd
  rcases hd with rfl | rfl | rfl | rfl <;> constructor <;> first | (unfold Dict.Nodup; decide) | (intro m h; cases h; unfold Dict.Nodup; decide) | (intro m h; cases h)

example : ∃ w : World String, Reachable w ∧ w.length = 4 ∧ validatorNames w 3 = ["validate_x"] ∧ ∃ c, w[3]? = some c ∧ c.isType = true ∧ c.mro = [3, 1, 2, 0] :=
  ⟨_, ⟨diamond, diamond_ok, rfl⟩, rfl, rfl, _, rfl, rfl, rfl⟩

/-- An inconsistent hierarchy is refused. -/
example : defineAll ([] : World String) [{ bases := [] }, { bases := [0] }, { bases := [0, 1] }] = none := rfl

end Verif.Lib.TypeClass
