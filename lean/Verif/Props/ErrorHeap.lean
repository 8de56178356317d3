import Verif.Lib.ErrorHeap
import Verif.Props.Error

/-!
# C101: what of an error can change after it is raised
-/
namespace Verif.Lib.ErrorHeap
open Verif Verif.Lib

/-! ## Vocabulary -/

/-- The message object `m` is one of those of the error. -/
inductive Inside (m : Nat) : Body → Prop
  | list {id c ms} : m ∈ ms → Inside m (.list id c ms)
  | node {id kvs k b} : (k, b) ∈ kvs → Inside m b → Inside m (.node id kvs)

mutual
/-- What the error says now: `t` holds the messages, with the attributes they have now.  There is no `t` if a message has a lazy text, or
if the error holds a list of the caller. -/
inductive Contents (w : World) : Body → Tree → Prop
  | list {id c ms l} : ContentsM w ms l → Contents w (.list id c ms) (.field c l)
  | text {s} : Contents w (.text s) (.text s)
  | node {id kvs es} : ContentsE w kvs es → Contents w (.node id kvs) (.node es)
/-- Entry by entry. -/
inductive ContentsE (w : World) : List (Key × Body) → List (Key × Tree) → Prop
  | nil : ContentsE w [] []
  | cons {k b t r s} : Contents w b t → ContentsE w r s → ContentsE w ((k, b) :: r) ((k, t) :: s)
/-- Message by message. -/
inductive ContentsM (w : World) : List Nat → List Message → Prop
  | nil : ContentsM w [] []
  | cons {i m r s} : w.msgs[i]? = some ⟨m.type, .plain m.summary, m.info⟩ → ContentsM w r s → ContentsM w (i :: r) (m :: s)
end

/-- What `error.to_primitive()` returns now, as data. -/
def reported (w : World) (e : Nat) : Option Prim :=
  match (toPrimitive w e).2 with
  | some p => (toPrimitive w e).1.prims[p]?
  | none => none

/-- The event does not write to a message of error `e` or to the report that `e` has returned. -/
def Spares (w : World) (e : Nat) : Event → Prop
  | .edit m _ _ => ∀ x, w.errs[e]? = some x → ¬ Inside m x.body
  | .smash p _ => ∀ x, w.errs[e]? = some x → x.report ≠ some p
  | _ => True

/-- No event of the history does. -/
def Quiet (h : Hash) (e : Nat) : World → List Event → Prop
  | _, [] => True
  | w, ev :: r => Spares w e ev ∧ Quiet h e (step h w ev) r

/-- An error of class `cls` built from `args` gets message object `m`: it is given itself, or an error that has it. -/
def Shares (w : World) (args : List Arg) (m : Nat) : Prop :=
  .message m ∈ args ∨ ∃ e x, .error e ∈ args ∧ w.errs[e]? = some x ∧ Inside m x.body

/-- The event does not use a message of `e` in an error of another kind. -/
def SameKind (w : World) (e : Nat) : Event → Prop
  | .field cls args => ∀ x m y, w.errs[e]? = some x → Inside m x.body → Shares w args m → w.msgs[m]? = some y →
      y.type = some (FKind.msgType cls)
  | _ => True

/-- No event of the history does. -/
def KindsKept (h : Hash) (e : Nat) : World → List Event → Prop
  | _, [] => True
  | w, ev :: r => SameKind w e ev ∧ KindsKept h e (step h w ev) r

/-! ## Lemmas: messages -/

theorem takeArg_old {cls tr errs msgs a msgs' ms} (h : takeArg cls tr errs msgs a = some (msgs', ms)) :
    ∃ new, msgs' = msgs ++ new := by
  cases a with
  | text t => simp only [takeArg, Option.some.injEq, Prod.mk.injEq] at h; exact ⟨_, h.1.symm⟩
  | pair t i => simp only [takeArg, Option.some.injEq, Prod.mk.injEq] at h; exact ⟨_, h.1.symm⟩
  | message m =>
    simp only [takeArg] at h
    split at h
    · simp only [Option.some.injEq, Prod.mk.injEq] at h; exact ⟨[], by simp [h.1]⟩
    · cases h
  | error e =>
    simp only [takeArg] at h
    split at h
    · split at h
      · simp only [Option.some.injEq, Prod.mk.injEq] at h; exact ⟨[], by simp [h.1]⟩
      · cases h
    · cases h

theorem takeArgs_old {cls tr errs} : ∀ {args msgs msgs' ms}, takeArgs cls tr errs msgs args = some (msgs', ms) →
    ∃ new, msgs' = msgs ++ new
  | [], msgs, msgs', ms, h => by
    simp only [takeArgs, Option.some.injEq, Prod.mk.injEq] at h; exact ⟨[], by simp [h.1]⟩
  | a :: r, msgs, msgs', ms, h => by
    unfold takeArgs at h
    cases ha : takeArg cls tr errs msgs a with
    | none => rw [ha] at h; cases h
    | some p =>
      obtain ⟨m1, l1⟩ := p
      rw [ha] at h
      simp only at h
      cases hr : takeArgs cls tr errs m1 r with
      | none => rw [hr] at h; cases h
      | some q =>
        obtain ⟨m2, l2⟩ := q
        rw [hr] at h
        simp only [Option.some.injEq, Prod.mk.injEq] at h
        obtain ⟨n1, h1⟩ := takeArg_old ha
        obtain ⟨n2, h2⟩ := takeArgs_old hr
        exact ⟨n1 ++ n2, by rw [← h.1, h2, h1, List.append_assoc]⟩

/-- The messages of the new error are new ones or shared ones. -/
theorem takeArg_from {cls tr errs msgs a msgs' ms} (h : takeArg cls tr errs msgs a = some (msgs', ms)) (m : Nat) (hm : m ∈ ms) :
    msgs.length ≤ m ∨ a = .message m ∨ ∃ (e : Nat) (x : Err), a = .error e ∧ errs[e]? = some x ∧ Inside m x.body := by
  cases a with
  | text t =>
    simp only [takeArg, Option.some.injEq, Prod.mk.injEq] at h; rw [← h.2] at hm
    simp only [List.mem_singleton] at hm; left; omega
  | pair t i =>
    simp only [takeArg, Option.some.injEq, Prod.mk.injEq] at h; rw [← h.2] at hm
    simp only [List.mem_singleton] at hm; left; omega
  | message m' =>
    simp only [takeArg] at h
    split at h
    · simp only [Option.some.injEq, Prod.mk.injEq] at h; rw [← h.2] at hm
      simp only [List.mem_singleton] at hm; right; left; rw [hm]
    · cases h
  | error e =>
    simp only [takeArg] at h
    split at h
    · rename_i c id c' ms0 r he
      split at h
      · simp only [Option.some.injEq, Prod.mk.injEq] at h; rw [← h.2] at hm
        exact .inr (.inr ⟨e, _, rfl, he, .list hm⟩)
      · cases h
    · cases h

theorem takeArgs_from {cls tr errs} : ∀ {args msgs msgs' ms}, takeArgs cls tr errs msgs args = some (msgs', ms) → ∀ m ∈ ms,
    msgs.length ≤ m ∨ .message m ∈ args ∨ ∃ (e : Nat) (x : Err), .error e ∈ args ∧ errs[e]? = some x ∧ Inside m x.body
  | [], msgs, msgs', ms, h, m, hm => by
    simp only [takeArgs, Option.some.injEq, Prod.mk.injEq] at h; rw [← h.2] at hm; cases hm
  | a :: r, msgs, msgs', ms, h, m, hm => by
    unfold takeArgs at h
    cases ha : takeArg cls tr errs msgs a with
    | none => rw [ha] at h; cases h
    | some p =>
      obtain ⟨m1, l1⟩ := p
      rw [ha] at h
      simp only at h
      cases hr : takeArgs cls tr errs m1 r with
      | none => rw [hr] at h; cases h
      | some q =>
        obtain ⟨m2, l2⟩ := q
        rw [hr] at h
        simp only [Option.some.injEq, Prod.mk.injEq] at h
        rw [← h.2, List.mem_append] at hm
        rcases hm with hm | hm
        · rcases takeArg_from ha m hm with h' | h' | ⟨e, x, h1, h2, h3⟩
          · exact .inl h'
          · exact .inr (.inl (by rw [h']; exact List.mem_cons_self))
          · exact .inr (.inr ⟨e, x, by rw [h1]; exact List.mem_cons_self, h2, h3⟩)
        · rcases takeArgs_from hr m hm with h' | h' | ⟨e, x, h1, h2, h3⟩
          · obtain ⟨n1, h1⟩ := takeArg_old ha
            left; rw [h1, List.length_append] at h'; omega
          · exact .inr (.inl (List.mem_cons_of_mem _ h'))
          · exact .inr (.inr ⟨e, x, List.mem_cons_of_mem _ h1, h2, h3⟩)

theorem retype_get (t : FKind) (msgs : List Msg) (i j : Nat) :
    (retype t msgs i)[j]? = if i = j then msgs[j]?.map fun m => { m with type := some t } else msgs[j]? := by
  unfold retype
  rw [List.getElem?_modify]
  split <;> simp

theorem retypeAll_get (t : FKind) : ∀ (ms : List Nat) (msgs : List Msg) (j : Nat),
    (ms.foldl (retype t) msgs)[j]? = if j ∈ ms then msgs[j]?.map fun m => { m with type := some t } else msgs[j]?
  | [], msgs, j => by simp
  | i :: r, msgs, j => by
    rw [List.foldl_cons, retypeAll_get t r, retype_get]
    by_cases h1 : i = j
    · subst h1
      simp only [if_true, List.mem_cons, true_or]
      split
      · cases msgs[i]? <;> simp
      · rfl
    · simp only [h1, if_false, List.mem_cons, Ne.symm h1, false_or]

/-- What an event does to a message that exists: only `edit` changes the text, only a new field error the type. -/
theorem step_msg (h : Hash) (w : World) (ev : Event) (m : Nat) (x : Msg) (hx : w.msgs[m]? = some x) :
    ∃ y, (step h w ev).msgs[m]? = some y ∧ ((∀ t i, ev ≠ .edit m t i) → y.summary = x.summary ∧ y.info = x.info) ∧
      ((∀ cls args, ev = .field cls args → Shares w args m → x.type = some (FKind.msgType cls)) → y.type = x.type) := by
  have hlt : m < w.msgs.length := by
    rcases List.getElem?_eq_some_iff.1 hx with ⟨h, _⟩; exact h
  have same : ∀ w' : World, w'.msgs = w.msgs → ∃ y, w'.msgs[m]? = some y ∧
      ((∀ t i, ev ≠ .edit m t i) → y.summary = x.summary ∧ y.info = x.info) ∧
      ((∀ cls args, ev = .field cls args → Shares w args m → x.type = some (FKind.msgType cls)) → y.type = x.type) := fun w' hw =>
    ⟨x, by rw [hw, hx], fun _ => ⟨rfl, rfl⟩, fun _ => rfl⟩
  cases ev with
  | translator tr => exact same _ rfl
  | message t i =>
    refine ⟨x, ?_, fun _ => ⟨rfl, rfl⟩, fun _ => rfl⟩
    show (w.msgs ++ _)[m]? = _
    rw [List.getElem?_append_left hlt, hx]
  | edit m' t i =>
    by_cases he : m' = m
    · subst he
      refine ⟨{ x with summary := t, info := i }, ?_, fun hn => absurd rfl (hn t i), fun _ => rfl⟩
      show (List.modify _ _ _)[m']? = _
      rw [List.getElem?_modify, hx]; simp
    · refine ⟨x, ?_, fun _ => ⟨rfl, rfl⟩, fun _ => rfl⟩
      show (List.modify _ _ _)[m]? = _
      rw [List.getElem?_modify, hx]; simp [he]
  | newList xs => exact same _ rfl
  | setList a xs => exact same _ rfl
  | newDict kvs => exact same _ (by simp only [step]; split <;> rfl)
  | setDict d k g => exact same _ (by simp only [step]; split <;> rfl)
  | field cls args =>
    show ∃ y, (newField w cls args).1.msgs[m]? = some y ∧ _
    unfold newField
    split
    · exact same w rfl
    · cases ht : takeArgs cls w.tr w.errs w.msgs args with
      | none => exact same w rfl
      | some p =>
        obtain ⟨msgs, ms⟩ := p
        obtain ⟨new, hn⟩ := takeArgs_old ht
        have hm : msgs[m]? = some x := by rw [hn, List.getElem?_append_left hlt, hx]
        simp only [retypeAll_get, hm]
        split
        · rename_i hmem
          refine ⟨{ x with type := some (FKind.msgType cls) }, rfl, fun _ => ⟨rfl, rfl⟩, fun hk => ?_⟩
          have := hk cls args rfl
          rcases takeArgs_from ht m hmem with h' | h' | h'
          · omega
          · exact (this (.inl h')).symm
          · exact (this (.inr h')).symm
        · exact ⟨x, rfl, fun _ => ⟨rfl, rfl⟩, fun _ => rfl⟩
  | compound d => exact same _ (by simp only [step, newCompound]; split <;> rfl)
  | report e => exact same _ (by simp only [step, toPrimitive]; split <;> [rfl; (split <;> rfl)])
  | hash e => exact same _ (by simp only [step, hashErr]; split <;> rfl)
  | smash p v => exact same _ rfl

/-! ## Lemmas: errors -/

/-- An event keeps the body of every error; its report is set at most once, by `report`. -/
theorem step_err (h : Hash) (w : World) (ev : Event) (e : Nat) (x : Err) (hx : w.errs[e]? = some x) :
    (step h w ev).errs[e]? = some x ∨
      ev = .report e ∧ x.report = none ∧ (step h w ev).errs[e]? = some { x with report := some w.prims.length } ∧
        (step h w ev).prims = w.prims ++ [reportB w x.body] := by
  have hlt : e < w.errs.length := by
    rcases List.getElem?_eq_some_iff.1 hx with ⟨h, _⟩; exact h
  cases ev with
  | newDict kvs => left; simp only [step]; split <;> exact hx
  | setDict d k g => left; simp only [step]; split <;> exact hx
  | field cls args =>
    left
    show (newField w cls args).1.errs[e]? = _
    unfold newField
    split
    · exact hx
    · split
      · exact hx
      · show (w.errs ++ _)[e]? = _
        rw [List.getElem?_append_left hlt, hx]
  | compound d =>
    left
    simp only [step, newCompound]
    split
    · exact hx
    · show (w.errs ++ _)[e]? = _
      rw [List.getElem?_append_left hlt, hx]
  | report e' =>
    show (toPrimitive w e').1.errs[e]? = _ ∨ _
    simp only [step, toPrimitive]
    split
    · exact .inl hx
    · rename_i x' hx'
      split
      · exact .inl hx
      · rename_i hn
        by_cases hee : e' = e
        · subst hee
          rw [hx] at hx'
          cases hx'
          right
          refine ⟨rfl, hn, ?_, rfl⟩
          show (w.errs.set e' _)[e']? = _
          rw [List.getElem?_set_self hlt]
        · left
          show (w.errs.set e' _)[e]? = _
          rw [List.getElem?_set_ne hee, hx]
  | hash e' => left; simp only [step, hashErr]; split <;> exact hx
  | translator tr => exact .inl hx
  | message t i => exact .inl hx
  | edit m t i => exact .inl hx
  | newList xs => exact .inl hx
  | setList a xs => exact .inl hx
  | smash p v => exact .inl hx

/-- A report object that is not written to by `smash` stays as it is. -/
theorem step_prim (h : Hash) (w : World) (ev : Event) (p : Nat) (v : Prim) (hp : w.prims[p]? = some v) (hs : ∀ v', ev ≠ .smash p v') :
    (step h w ev).prims[p]? = some v := by
  have hlt : p < w.prims.length := by
    rcases List.getElem?_eq_some_iff.1 hp with ⟨h, _⟩; exact h
  cases ev with
  | newDict kvs => simp only [step]; split <;> exact hp
  | setDict d k g => simp only [step]; split <;> exact hp
  | field cls args => simp only [step, newField]; split <;> [exact hp; (split <;> exact hp)]
  | compound d => simp only [step, newCompound]; split <;> exact hp
  | report e =>
    simp only [step, toPrimitive]
    split
    · exact hp
    · split
      · exact hp
      · show (w.prims ++ _)[p]? = _
        rw [List.getElem?_append_left hlt, hp]
  | hash e => simp only [step, hashErr]; split <;> exact hp
  | translator tr => exact hp
  | message t i => exact hp
  | edit m t i => exact hp
  | newList xs => exact hp
  | setList a xs => exact hp
  | smash p' v' =>
    show (w.prims.set p' v')[p]? = _
    by_cases hpp : p' = p
    · subst hpp; exact absurd rfl (hs v')
    · rw [List.getElem?_set_ne hpp, hp]

/-! ## Lemmas: contents -/

theorem contentsM_same {w w' : World} : ∀ {ms l}, ContentsM w ms l →
    (∀ m x, m ∈ ms → w.msgs[m]? = some x → w'.msgs[m]? = some x) → ContentsM w' ms l
  | _, _, .nil, _ => .nil
  | _, _, .cons h r, hk => .cons (hk _ _ List.mem_cons_self h) (contentsM_same r fun m x hm => hk m x (List.mem_cons_of_mem _ hm))

mutual
theorem contents_same {w w' : World} : ∀ {b t}, Contents w b t →
    (∀ m x, Inside m b → w.msgs[m]? = some x → w'.msgs[m]? = some x) → Contents w' b t
  | _, _, .list h, hk => .list (contentsM_same h fun m x hm => hk m x (.list hm))
  | _, _, .text, _ => .text
  | _, _, .node h, hk => .node (contentsE_same h fun _ _ m x hb hm => hk m x (.node hb hm))
theorem contentsE_same {w w' : World} : ∀ {kvs es}, ContentsE w kvs es →
    (∀ k b m x, (k, b) ∈ kvs → Inside m b → w.msgs[m]? = some x → w'.msgs[m]? = some x) → ContentsE w' kvs es
  | _, _, .nil, _ => .nil
  | _, _, .cons h r, hk => .cons (contents_same h fun m x hm => hk _ _ m x List.mem_cons_self hm)
      (contentsE_same r fun k b m x hb => hk k b m x (List.mem_cons_of_mem _ hb))
end

theorem contentsM_text {w w' : World} : ∀ {ms l}, ContentsM w ms l →
    (∀ m x, m ∈ ms → w.msgs[m]? = some x → ∃ y, w'.msgs[m]? = some y ∧ y.summary = x.summary ∧ y.info = x.info) →
    ∃ l', ContentsM w' ms l' ∧ l'.map Message.str = l.map Message.str
  | _, _, .nil, _ => ⟨[], .nil, rfl⟩
  | _, _, .cons (m := m) h r, hk => by
    obtain ⟨l', h1, h2⟩ := contentsM_text r fun m x hm => hk m x (List.mem_cons_of_mem _ hm)
    obtain ⟨y, hy, hs, hi⟩ := hk _ _ List.mem_cons_self h
    refine ⟨⟨y.type, m.summary, m.info⟩ :: l', .cons ?_ h1, ?_⟩
    · rw [hy]; cases y; simp only at hs hi; rw [hs, hi]
    · rw [List.map_cons, List.map_cons, h2]; rfl

theorem map_text_str (l : List Message) : (l.map fun m => Prim.text m.str) = (l.map Message.str).map Prim.text := by
  rw [List.map_map]; rfl

mutual
theorem contents_text {w w' : World} : ∀ {b t}, Contents w b t →
    (∀ m x, Inside m b → w.msgs[m]? = some x → ∃ y, w'.msgs[m]? = some y ∧ y.summary = x.summary ∧ y.info = x.info) →
    ∃ t', Contents w' b t' ∧ toPrim t' = toPrim t
  | _, _, .list (c := c) h, hk => by
    obtain ⟨l', h1, h2⟩ := contentsM_text h fun m x hm => hk m x (.list hm)
    exact ⟨.field c l', .list h1, by simp only [toPrim, map_text_str, h2]⟩
  | _, _, .text (s := s), _ => ⟨.text s, .text, rfl⟩
  | _, _, .node h, hk => by
    obtain ⟨es', h1, h2⟩ := contentsE_text h fun k b m x hb hm => hk m x (.node hb hm)
    exact ⟨.node es', .node h1, by simp only [toPrim, h2]⟩
theorem contentsE_text {w w' : World} : ∀ {kvs es}, ContentsE w kvs es →
    (∀ k b m x, (k, b) ∈ kvs → Inside m b → w.msgs[m]? = some x → ∃ y, w'.msgs[m]? = some y ∧ y.summary = x.summary ∧ y.info = x.info) →
    ∃ es', ContentsE w' kvs es' ∧ toPrimEntries es' = toPrimEntries es
  | _, _, .nil, _ => ⟨[], .nil, rfl⟩
  | _, _, .cons (k := k) h r, hk => by
    obtain ⟨t', h1, h2⟩ := contents_text h fun m x hm => hk _ _ m x List.mem_cons_self hm
    obtain ⟨es', h3, h4⟩ := contentsE_text r fun _ _ m x hb => hk _ _ m x (List.mem_cons_of_mem _ hb)
    exact ⟨(k, t') :: es', .cons h1 h3, by simp only [toPrimEntries, h2, h4]⟩
end

theorem contentsM_report {w : World} : ∀ {ms l}, ContentsM w ms l →
    (ms.filterMap fun i => w.msgs[i]?.map fun m => Prim.text (m.str w.tr)) = l.map fun m => .text m.str
  | _, _, .nil => rfl
  | _, _, .cons h r => by
    rw [List.filterMap_cons, h]
    simp only [Option.map_some, contentsM_report r, List.map_cons]
    rfl

mutual
theorem contents_report {w : World} : ∀ {b t}, Contents w b t → reportB w b = toPrim t
  | _, _, .list h => by rw [reportB, toPrim, contentsM_report h]
  | _, _, .text => by rw [reportB, toPrim]
  | _, _, .node h => by rw [reportB, toPrim, contentsE_report h]
theorem contentsE_report {w : World} : ∀ {kvs es}, ContentsE w kvs es → reportE w kvs = toPrimEntries es
  | _, _, .nil => by rw [reportE, toPrimEntries]
  | _, _, .cons h r => by rw [reportE, toPrimEntries, contents_report h, contentsE_report r]
end

theorem contentsM_exists {w : World} : ∀ {ms l}, ContentsM w ms l → ∀ m ∈ ms, ∃ x, w.msgs[m]? = some x
  | _, _, .cons h r, m, hm => by
    rcases List.mem_cons.1 hm with rfl | hm
    · exact ⟨_, h⟩
    · exact contentsM_exists r m hm

theorem contentsE_get {w : World} : ∀ {kvs es}, ContentsE w kvs es → ∀ k b, (k, b) ∈ kvs → ∃ t, (k, t) ∈ es ∧ Contents w b t
  | _, _, .cons h r, k, b, hm => by
    rcases List.mem_cons.1 hm with h1 | hm
    · cases h1; exact ⟨_, List.mem_cons_self, h⟩
    · obtain ⟨t, h1, h2⟩ := contentsE_get r k b hm
      exact ⟨t, List.mem_cons_of_mem _ h1, h2⟩

theorem inside_exists {w : World} {m : Nat} {b : Body} (hm : Inside m b) : ∀ {t}, Contents w b t → ∃ x, w.msgs[m]? = some x := by
  induction hm with
  | list h => intro t ht; cases ht with | list hl => exact contentsM_exists hl _ h
  | node hk _ ih =>
    intro t ht
    cases ht with
    | node he => obtain ⟨t', _, h2⟩ := contentsE_get he _ _ hk; exact ih h2

/-! ## The theorems -/

/-- Whatever happens after an error is raised, it keeps its keys, its nesting and its message objects: nothing the program does to the
dict, the lists or the errors it was built from reaches it.  (`body` holds the places and, at each place, which message objects are there;
`Contents` says what these show.) -/
theorem C101_structure_fixed (h : Hash) (es : List Event) : ∀ (w : World) (e : Nat) (x : Err), w.errs[e]? = some x →
    ∃ r, (run h w es).errs[e]? = some { x with report := r } := by
  induction es with
  | nil => intro w e x hx; exact ⟨x.report, hx⟩
  | cons ev es ih =>
    intro w e x hx
    rcases step_err h w ev e x hx with hs | ⟨_, _, hs, _⟩
    · exact ih _ e x hs
    · obtain ⟨r, hr⟩ := ih _ e _ hs
      exact ⟨r, hr⟩

/-- An error made of texts says the same for ever: whatever happens, its report is the one it had when it was raised, unless the program
writes to a message of it or to the report that it got. -/
theorem C101_report_fixed (h : Hash) (es : List Event) : ∀ (w : World) (e : Nat) (x : Err) (t : Tree), w.errs[e]? = some x →
    Contents w x.body t → (∀ p, x.report = some p → w.prims[p]? = some (toPrim t)) → Quiet h e w es →
    reported (run h w es) e = some (toPrim t) := by
  induction es with
  | nil =>
    intro w e x t hx ht hp _
    show reported w e = _
    unfold reported toPrimitive
    rw [hx]
    simp only
    cases hr : x.report with
    | some p => simp only; exact hp p hr
    | none => simp only [List.getElem?_append_right (Nat.le_refl _), Nat.sub_self, List.getElem?_cons_zero, contents_report ht]
  | cons ev es ih =>
    intro w e x t hx ht hp hq
    obtain ⟨hsp, hq⟩ := hq
    obtain ⟨t', ht', htt⟩ : ∃ t', Contents (step h w ev) x.body t' ∧ toPrim t' = toPrim t := by
      apply contents_text ht
      intro m y hm hy
      obtain ⟨z, hz, hzs, _⟩ := step_msg h w ev m y hy
      exact ⟨z, hz, hzs fun t i he => by subst he; exact hsp x hx hm⟩
    rw [← htt]
    rcases step_err h w ev e x hx with hs | ⟨_, _, hs, hpr⟩
    · refine ih _ e x t' hs ht' ?_ hq
      intro p hp'
      rw [htt]
      refine step_prim h w ev p _ (hp p hp') fun v hv => ?_
      subst hv
      exact hsp x hx hp'
    · refine ih _ e _ t' hs ht' ?_ hq
      intro p hp'
      simp only [Option.some.injEq] at hp'
      rw [← hp', hpr, List.getElem?_append_right (Nat.le_refl _), Nat.sub_self, htt, ← contents_report ht]
      rfl

/-- As long as moreover none of its messages is used in an error of the other kind (conversion, validation), the error keeps the same
contents, message types included; so it keeps being equal to the same errors. -/
theorem C101_contents_fixed (h : Hash) (es : List Event) : ∀ (w : World) (e : Nat) (x : Err) (t : Tree), w.errs[e]? = some x →
    Contents w x.body t → Quiet h e w es → KindsKept h e w es → Contents (run h w es) x.body t := by
  induction es with
  | nil => intro w e x t _ ht _ _; exact ht
  | cons ev es ih =>
    intro w e x t hx ht hq hk
    obtain ⟨hsp, hq⟩ := hq
    obtain ⟨hsk, hk⟩ := hk
    have ht' : Contents (step h w ev) x.body t := by
      apply contents_same ht
      intro m y hm hy
      obtain ⟨z, hz, hzs, hzt⟩ := step_msg h w ev m y hy
      obtain ⟨h1, h2⟩ := hzs fun t i he => by subst he; exact hsp x hx hm
      have h3 := hzt fun cls args he hsh => by subst he; exact hsk x m y hx hm hsh hy
      rw [hz]
      cases z; cases y
      simp only at h1 h2 h3
      rw [h1, h2, h3]
    rcases step_err h w ev e x hx with hs | ⟨_, _, hs, _⟩
    · exact ih _ e x t hs ht' hq hk
    · exact ih _ e { x with report := some w.prims.length } t hs ht' hq hk

/-! ### Language -/

theorem takeArgs_texts (cls : FKind) (tr : Option (String → String)) (errs : List Err) : ∀ (ts : List Txt) (msgs : List Msg),
    takeArgs cls tr errs msgs (ts.map .text) =
      some (msgs ++ ts.map fun t => ⟨none, .plain (t.str tr), none⟩, (List.range ts.length).map (msgs.length + ·))
  | [], msgs => by simp [takeArgs]
  | t :: ts, msgs => by
    rw [List.map_cons, takeArgs, takeArg]
    simp only
    rw [takeArgs_texts cls tr errs ts]
    simp only [List.append_assoc, List.cons_append, List.nil_append, List.length_append, List.length_cons, List.length_nil,
      List.map_cons, Option.some.injEq, Prod.mk.injEq, true_and]
    rw [List.range_succ_eq_map, List.map_cons, List.map_map]
    simp only [Nat.add_zero, List.cons.injEq, true_and]
    apply List.map_congr_left
    intro i _
    simp only [Function.comp]
    omega

theorem contentsM_at {w : World} : ∀ {n : Nat} {l : List Message}, (∀ j (m : Message), l[j]? = some m →
    w.msgs[n + j]? = some ⟨m.type, .plain m.summary, m.info⟩) → ContentsM w ((List.range l.length).map (n + ·)) l
  | n, [], _ => .nil
  | n, m :: l, h => by
    rw [List.length_cons, List.range_succ_eq_map, List.map_cons, List.map_map]
    refine .cons (h 0 m rfl) ?_
    have : ((fun x => n + x) ∘ Nat.succ) = fun x => (n + 1) + x := by funext j; simp only [Function.comp]; omega
    rw [this]
    refine contentsM_at fun j m' hj => ?_
    have := h (j + 1) m' (by simpa using hj)
    rw [show n + 1 + j = n + (j + 1) by omega]
    exact this

/-- The language of an error is settled when it is raised: an error made of texts and lazy texts says, for ever, what the translator
registered at that moment makes of them, whatever translators are registered later. -/
theorem C101_language (h : Hash) (w : World) (cls : FKind) (ts : List Txt) (hne : ts ≠ []) (es : List Event) :
    ∃ w', newField w cls (ts.map .text) = (w', some w.errs.length) ∧
      Contents w' (.list w.next (some cls) ((List.range ts.length).map (w.msgs.length + ·)))
        (.field (some cls) (ts.map fun t => ⟨some (FKind.msgType cls), t.str w.tr, none⟩)) ∧
      (Quiet h w.errs.length w' es →
        reported (run h w' es) w.errs.length = some (.list (ts.map fun t => .text (t.str w.tr)))) := by
  have hne' : ts.map Arg.text ≠ [] := by simpa using hne
  have hn : newField w cls (ts.map .text) = ({ w with
      msgs := ((List.range ts.length).map (w.msgs.length + ·)).foldl (retype (FKind.msgType cls))
        (w.msgs ++ ts.map fun t => ⟨none, .plain (t.str w.tr), none⟩),
      errs := w.errs ++ [⟨some cls, .list w.next (some cls) ((List.range ts.length).map (w.msgs.length + ·)), none⟩],
      next := w.next + 1 }, some w.errs.length) := by
    unfold newField
    rw [if_neg hne', takeArgs_texts]
  have hc : Contents (newField w cls (ts.map .text)).1 (.list w.next (some cls) ((List.range ts.length).map (w.msgs.length + ·)))
        (.field (some cls) (ts.map fun t => ⟨some (FKind.msgType cls), t.str w.tr, none⟩)) := by
    refine .list ?_
    have := contentsM_at (w := (newField w cls (ts.map .text)).1) (n := w.msgs.length)
      (l := ts.map fun t => ⟨some (FKind.msgType cls), t.str w.tr, none⟩) ?_
    · rw [List.length_map] at this; exact this
    · intro j m hj
      rw [hn]
      simp only [retypeAll_get]
      rw [List.getElem?_map] at hj
      cases ht : ts[j]? with
      | none => rw [ht] at hj; cases hj
      | some t =>
        rw [ht] at hj
        simp only [Option.map_some, Option.some.injEq] at hj
        rw [if_pos, List.getElem?_append_right (Nat.le_add_right _ _), Nat.add_sub_cancel_left, List.getElem?_map, ht]
        · rw [← hj]; rfl
        · rw [List.mem_map]
          exact ⟨j, List.mem_range.2 (by rcases List.getElem?_eq_some_iff.1 ht with ⟨h, _⟩; exact h), rfl⟩
  rw [hn] at hc
  refine ⟨_, hn, hc, fun hq => ?_⟩
  · have := C101_report_fixed h es _ w.errs.length ⟨some cls, .list w.next (some cls) ((List.range ts.length).map (w.msgs.length + ·)), none⟩ _
      (by simp only [List.getElem?_append_right (Nat.le_refl _), Nat.sub_self, List.getElem?_cons_zero]) hc (fun p hp => by cases hp) hq
    rw [this]
    simp only [toPrim, List.map_map]
    rfl

/-! ### Caching of hashes -/

mutual
theorem hashB_keeps (h : Hash) (w : World) : ∀ (b : Body) (c : Nat → Option Nat) (j v : Nat), c j = some v → (hashB h w c b).1 j = some v
  | .list id _ ms, c, j, v, hj => by
    unfold hashB
    split
    · exact hj
    · rename_i hn
      simp only [remember]
      split
      · rename_i he; subst he; rw [hj] at hn; cases hn
      · exact hj
  | .text s, c, j, v, hj => by unfold hashB; exact hj
  | .raw a, c, j, v, hj => by unfold hashB; exact hj
  | .node id kvs, c, j, v, hj => by
    unfold hashB
    split
    · exact hj
    · rename_i hn
      have hk := hashE_keeps h w kvs c 0 j v hj
      cases hr : hashE h w c 0 kvs with
      | mk c' r =>
        rw [hr] at hk
        cases r with
        | none => exact hk
        | some r =>
          simp only [finish, remember]
          split
          · rename_i he; subst he; rw [hj] at hn; cases hn
          · exact hk
theorem hashE_keeps (h : Hash) (w : World) : ∀ (kvs : List (Key × Body)) (c : Nat → Option Nat) (a : Nat) (j v : Nat), c j = some v →
    (hashE h w c a kvs).1 j = some v
  | [], c, a, j, v, hj => by unfold hashE; exact hj
  | (k, b) :: r, c, a, j, v, hj => by
    unfold hashE
    have hk := hashB_keeps h w b c j v hj
    cases hr : hashB h w c b with
    | mk c' o =>
      rw [hr] at hk
      cases o with
      | none => exact hk
      | some x => exact hashE_keeps h w r c' _ j v hk
end

theorem step_hashes (h : Hash) (w : World) (ev : Event) (j v : Nat) (hj : w.hashes j = some v) : (step h w ev).hashes j = some v := by
  cases ev with
  | newDict kvs => simp only [step]; split <;> exact hj
  | setDict d k g => simp only [step]; split <;> exact hj
  | field cls args => simp only [step, newField]; split <;> [exact hj; (split <;> exact hj)]
  | compound d => simp only [step, newCompound]; split <;> exact hj
  | report e => simp only [step, toPrimitive]; split <;> [exact hj; (split <;> exact hj)]
  | hash e =>
    simp only [step, hashErr]
    split
    · exact hj
    · exact hashB_keeps h w _ _ j v hj
  | translator tr => exact hj
  | message t i => exact hj
  | edit m t i => exact hj
  | newList xs => exact hj
  | setList a xs => exact hj
  | smash p' v' => exact hj

theorem run_hashes (h : Hash) (es : List Event) : ∀ (w : World) (j v : Nat), w.hashes j = some v → (run h w es).hashes j = some v := by
  induction es with
  | nil => intro w j v hj; exact hj
  | cons ev es ih => intro w j v hj; exact ih _ j v (step_hashes h w ev j v hj)

theorem hashB_cached (h : Hash) (w : World) (c : Nat → Option Nat) (b : Body) (v : Nat) (hv : (hashB h w c b).2 = some v) :
    (∃ s, b = .text s) ∨ ∃ id, (hashB h w c b).1 id = some v ∧ ∀ w' c', c' id = some v → (hashB h w' c' b).2 = some v := by
  cases b with
  | text s => exact .inl ⟨s, rfl⟩
  | raw a => simp [hashB] at hv
  | list id cl ms =>
    refine .inr ⟨id, ?_, fun w' c' hc => by simp only [hashB, hc]⟩
    unfold hashB at hv ⊢
    split
    · rename_i x hx; rw [hx] at hv; exact hx.trans hv
    · rename_i hx; rw [hx] at hv; simp only [remember, if_true]; exact hv
  | node id kvs =>
    refine .inr ⟨id, ?_, fun w' c' hc => by simp only [hashB, hc]⟩
    unfold hashB at hv ⊢
    split
    · rename_i x hx; rw [hx] at hv; exact hx.trans hv
    · rename_i hx
      rw [hx] at hv
      simp only at hv
      cases hr : hashE h w c 0 kvs with
      | mk c' r =>
        rw [hr] at hv
        cases r with
        | none => cases hv
        | some r => simp only [finish, Option.some.injEq] at hv; simp only [finish, remember, if_true, hv]

/-- An error keeps its hash, as dicts, sets and the logging module need: once `hash(error)` has returned a number, it returns this number
for ever, whatever happens. -/
theorem C101_hash_fixed (h : Hash) (w : World) (e v : Nat) (hv : (hashErr h w e).2 = some v) (es : List Event) :
    (hashErr h (run h (hashErr h w e).1 es) e).2 = some v := by
  unfold hashErr at hv
  cases hx : w.errs[e]? with
  | none => rw [hx] at hv; cases hv
  | some x =>
    rw [hx] at hv
    simp only at hv
    have h1 : (hashErr h w e).1.errs[e]? = some x := by unfold hashErr; rw [hx]; simp only; exact hx
    obtain ⟨r, hr⟩ := C101_structure_fixed h es _ e x h1
    have h2 : (hashErr h w e).1.hashes = (hashB h w w.hashes x.body).1 := by unfold hashErr; rw [hx]
    have h3 : ∀ j u, (hashB h w w.hashes x.body).1 j = some u → (run h (hashErr h w e).1 es).hashes j = some u := by
      rw [← h2]; exact run_hashes h es _
    generalize run h (hashErr h w e).1 es = w' at hr h3 ⊢
    unfold hashErr
    rw [hr]
    simp only
    rcases hashB_cached h w w.hashes x.body v hv with ⟨s, hs⟩ | ⟨id, h4, h5⟩
    · rw [hs] at hv ⊢
      simp only [hashB] at hv ⊢
      exact hv
    · exact h5 _ _ (h3 _ _ h4)

end Verif.Lib.ErrorHeap
