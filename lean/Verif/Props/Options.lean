import Verif.Lib.Options

/-!
# C100: model options
-/
namespace Verif.Options

/-! ## Specification -/

/-- The public attributes of every options object. -/
def five : List String := ["namespace", "roles", "export_level", "export_order", "extras"]

/-- An ordinary options object: it has the public attributes of `SchemaOptions`, `roles` and `extras` are the dicts `r` and `x`, and `extras` holds private options only. -/
structure Proper (ds : List Attrs) (o r x : Attrs) : Prop where
  nodup : o.Nodup
  has : ∀ k ∈ five, k ∈ o.keys
  only : ∀ k ∈ o.keys, k ∈ five ∨ hidden k = true
  roles : ∃ a, o.get? "roles" = some (.dct a) ∧ ds[a]? = some r
  extras : ∃ a, o.get? "extras" = some (.dct a) ∧ ds[a]? = some x
  private_ : ∀ k ∈ x.keys, hidden k = true

/-- A role in the dict `roles` of a class body. -/
def bodyRole (ds : List Attrs) (body : Attrs) (n : String) : Option V :=
  match body.get? "roles" with
  | some (.dct a) =>
    match ds[a]? with
    | some d => d.get? n
    | none => none
  | _ => none

/-- The export level of a class, if its leftmost base has `inherited`: `serialize_when_none` of the body decides, then `export_level` of the body. -/
def levelOf (body : Attrs) (inherited : Option V) : Option V :=
  match body.get? "serialize_when_none" with
  | some (.bool true) => some (.num 10)
  | some (.bool false) => some (.num 1)
  | _ => (body.get? "export_level").or inherited

/-! ## Lemmas -/

theorem get?_visible (o : Attrs) (k : String) : (visible o).get? k = if hidden k then none else o.get? k := by
  induction o with
  | nil => cases h : hidden k <;> rfl
  | cons p o ih =>
    obtain ⟨j, v⟩ := p
    unfold visible at ih ⊢
    rw [List.filter_cons]
    by_cases hj : hidden j = true
    · simp only [hj, Bool.not_true, Bool.false_eq_true, if_false]
      rw [ih, Dict.get?_cons]
      by_cases e : j = k
      · subst e; simp [hj]
      · simp [e]
    · have hj' : hidden j = false := by simpa using hj
      simp only [hj', Bool.not_false, if_true]
      rw [Dict.get?_cons, Dict.get?_cons, ih]
      by_cases e : j = k
      · subst e; simp [hj']
      · simp [e]

theorem mem_visible (o : Attrs) (k : String) : k ∈ (visible o).keys ↔ k ∈ o.keys ∧ hidden k = false := by
  unfold visible Dict.keys
  simp only [List.mem_map, List.mem_filter, Bool.not_eq_eq_eq_not, Bool.not_true]
  constructor
  · rintro ⟨p, ⟨h1, h2⟩, rfl⟩; exact ⟨⟨p, h1, rfl⟩, h2⟩
  · rintro ⟨⟨p, h1, rfl⟩, h2⟩; exact ⟨p, ⟨h1, h2⟩, rfl⟩

theorem nodup_visible {o : Attrs} (h : o.Nodup) : (visible o).Nodup := by
  unfold visible Dict.Nodup Dict.keys at *
  exact List.Sublist.nodup (List.Sublist.map _ List.filter_sublist) h

theorem inherit_append (cs : List Attrs) : ∀ (l : List Nat) (acc : Attrs) (b : Nat),
    inherit cs acc (l ++ [b]) = match cs[b]? with | some o => (inherit cs acc l).update (visible o) | none => inherit cs acc l
  | [], acc, b => by
    rw [List.nil_append, inherit, inherit]
    cases cs[b]? <;> rfl
  | c :: l, acc, b => by
    rw [List.cons_append, inherit, inherit]
    cases cs[c]? with
    | some o => exact inherit_append cs l _ b
    | none => exact inherit_append cs l _ b

theorem inherit_keys (cs : List Attrs) (k : String) : ∀ (l : List Nat) (acc : Attrs),
    k ∈ (inherit cs acc l).keys ↔ k ∈ acc.keys ∨ ∃ c ∈ l, ∃ o, cs[c]? = some o ∧ k ∈ o.keys ∧ hidden k = false
  | [], acc => by simp [inherit]
  | c :: l, acc => by
    rw [inherit]
    cases hc : cs[c]? with
    | none => rw [inherit_keys cs k l acc]; simp [hc]
    | some o => rw [inherit_keys cs k l, Dict.mem_keys_update, mem_visible]; simp [hc, or_assoc]

theorem items_append {ds l : List Attrs} {v : Option V} {d : Attrs} (h : items ds v = some d) : items (ds ++ l) v = some d := by
  match v with
  | none => exact h
  | some (.dct a) =>
    show (ds ++ l)[a]? = some d
    have h : ds[a]? = some d := h
    rw [List.getElem?_append_left (List.getElem?_eq_some_iff.1 h).1]
    exact h
  | some .none => cases h
  | some (.bool _) => cases h
  | some (.num _) => cases h
  | some (.other _) => cases h

theorem items_new (ds : List Attrs) (d : Attrs) : items (ds ++ [d]) (some (.dct ds.length)) = some d := by
  show (ds ++ [d])[ds.length]? = some d
  rw [List.getElem?_append_right (Nat.le_refl _), Nat.sub_self]
  rfl

theorem mem_set (d : Attrs) (k x : String) (v : V) : x ∈ (d.set k v).keys ↔ x ∈ d.keys ∨ x = k := by
  rw [Dict.mem_keys_set, or_comm]

/-- What the members of the body do. -/
structure Merged (ds ds' : List Attrs) (m m' : Attrs) (r x r' x' : Attrs) (body : Attrs) : Prop where
  grows : ∃ l, ds' = ds ++ l
  roles : items ds' (m'.get? "roles") = some r'
  extras : items ds' (m'.get? "extras") = some x'
  role : ∀ n, r'.get? n = (bodyRole ds body n).or (r.get? n)
  extra : ∀ k, x'.get? k = if hidden k = true ∧ dunder k = false then (body.get? k).or (x.get? k) else x.get? k
  other : ∀ k, hidden k = false → k ≠ "roles" → k ≠ "extras" → m'.get? k = (body.get? k).or (m.get? k)
  sameRoles : "roles" ∉ body.keys → m'.get? "roles" = m.get? "roles"
  newRoles : "roles" ∈ body.keys → ∃ a, m'.get? "roles" = some (.dct a) ∧ ds.length ≤ a
  keys : ∀ k, k ∈ m'.keys → k ∈ m.keys ∨ (k ∈ body.keys ∧ hidden k = false) ∨ k = "extras"
  keys' : ∀ k, k ∈ m.keys ∨ (k ∈ body.keys ∧ hidden k = false) → k ∈ m'.keys
  nodup : m.Nodup → m'.Nodup

theorem hidden_of_dunder {k : String} (h : dunder k = true) : hidden k = true := by
  unfold dunder at h
  unfold hidden
  cases hk : k.toList with
  | nil => rw [hk] at h; cases h
  | cons c r =>
    rw [hk] at h
    cases r with
    | nil => simp at h
    | cons d r => simp at h ⊢; exact h.1

theorem bodyRole_cons_ne {ds : List Attrs} {body : Attrs} {k : String} (hk : k ≠ "roles") (v : V) (n : String) : bodyRole ds ((k, v) :: body) n = bodyRole ds body n := by
  unfold bodyRole
  rw [Dict.get?_cons, if_neg hk]

theorem bodyRole_none {ds : List Attrs} {body : Attrs} (h : "roles" ∉ body.keys) (n : String) : bodyRole ds body n = none := by
  unfold bodyRole
  rw [(Dict.get?_eq_none _ _).2 h]

theorem bodyRole_append {ds l : List Attrs} {body : Attrs} (h : ∀ a, body.get? "roles" = some (.dct a) → a < ds.length) (n : String) :
    bodyRole (ds ++ l) body n = bodyRole ds body n := by
  unfold bodyRole
  cases hb : body.get? "roles" with
  | none => rfl
  | some v =>
    cases v with
    | dct a => dsimp only; rw [List.getElem?_append_left (h a hb)]
    | _ => rfl

theorem merged_refl {ds : List Attrs} {m r x : Attrs} (hr : items ds (m.get? "roles") = some r) (hx : items ds (m.get? "extras") = some x) : Merged ds ds m m r x r x [] where
  grows := ⟨[], (List.append_nil _).symm⟩
  roles := hr
  extras := hx
  role n := by rw [bodyRole_none (by simp)]; rfl
  extra k := by split <;> rfl
  other k _ _ _ := rfl
  sameRoles _ := rfl
  newRoles h := by simp at h
  keys k h := .inl h
  keys' k h := by rcases h with h | h; exact h; simp at h
  nodup h := h

/-- One member of the body. -/
theorem member_merged {ds : List Attrs} {m r x : Attrs} {k : String} {v : V} (hd : ∀ d ∈ ds, d.Nodup) (hr : items ds (m.get? "roles") = some r) (hx : items ds (m.get? "extras") = some x)
    (hk : k ≠ "extras") (hv : k = "roles" → ∃ a, v = .dct a ∧ a < ds.length) : ∃ ds' m' r' x', member ds m k v = .ok (ds', m') ∧ Merged ds ds' m m' r x r' x' [(k, v)] ∧
      ∀ d ∈ ds', d.Nodup := by
  have nodupOf : ∀ {w : Option V} {d : Attrs}, items ds w = some d → d.Nodup := by
    intro w d h
    match w with
    | none => cases h; exact List.nodup_nil
    | some (.dct a) => exact hd d (List.mem_of_getElem? h)
    | some .none => cases h
    | some (.bool _) => cases h
    | some (.num _) => cases h
    | some (.other _) => cases h
  unfold member
  by_cases h1 : dunder k = true
  · have h2 := hidden_of_dunder h1
    rw [if_pos h1]
    refine ⟨ds, m, r, x, rfl, ?_, hd⟩
    have hne : k ≠ "roles" := by rintro rfl; exact absurd h2 (by decide)
    exact {
      grows := ⟨[], (List.append_nil _).symm⟩
      roles := hr
      extras := hx
      role := fun n => by rw [bodyRole_cons_ne hne, bodyRole_none (by simp)]; rfl
      extra := fun j => by
        rw [Dict.get?_cons]
        by_cases e : k = j
        · subst e; simp [h1]
        · simp [e]
      other := fun j hj _ _ => by
        rw [Dict.get?_cons, if_neg (by rintro rfl; rw [h2] at hj; cases hj)]; rfl
      sameRoles := fun _ => rfl
      newRoles := fun h => by simp at h; exact absurd h.symm hne
      keys := fun j h => .inl h
      keys' := fun j h => by
        rcases h with h | ⟨h, h'⟩
        · exact h
        · simp at h; subst h; rw [h2] at h'; cases h'
      nodup := fun h => h }
  · rw [if_neg h1]
    have h1' : dunder k = false := by simpa using h1
    by_cases h2 : hidden k = true
    · rw [if_pos h2, hx]
      have hne : k ≠ "roles" := by rintro rfl; exact absurd h2 (by decide)
      refine ⟨_, _, r, x.set k v, rfl, ?_, ?_⟩
      · exact {
          grows := ⟨_, rfl⟩
          roles := by rw [Dict.get?_set_ne _ _ (by decide)]; exact items_append hr
          extras := by rw [Dict.get?_set, if_pos rfl]; exact items_new ds _
          role := fun n => by rw [bodyRole_cons_ne hne, bodyRole_none (by simp)]; rfl
          extra := fun j => by
            rw [Dict.get?_set, Dict.get?_cons]
            by_cases e : k = j
            · subst e; simp [h1', h2]
            · simp [e]
          other := fun j hj e1 e2 => by
            rw [Dict.get?_set_ne _ _ (Ne.symm e2), Dict.get?_cons, if_neg (by rintro rfl; rw [h2] at hj; cases hj)]; rfl
          sameRoles := fun _ => Dict.get?_set_ne _ _ (by decide)
          newRoles := fun h => by simp at h; exact absurd h.symm hne
          keys := fun j h => by
            rcases (mem_set _ _ _ _).1 h with h | h
            · exact .inl h
            · exact .inr (.inr h)
          keys' := fun j h => by
            rcases h with h | ⟨h, h'⟩
            · exact (mem_set _ _ _ _).2 (.inl h)
            · simp at h; subst h; rw [h2] at h'; cases h'
          nodup := fun h => Dict.nodup_set h _ _ }
      · intro d hd'
        rcases List.mem_append.1 hd' with h | h
        · exact hd d h
        · rw [List.mem_singleton.1 h]; exact Dict.nodup_set (nodupOf hx) _ _
    · rw [if_neg h2]
      have h2' : hidden k = false := by simpa using h2
      by_cases h3 : k = "roles"
      · subst h3
        rw [if_pos rfl, hr]
        obtain ⟨a, rfl, ha⟩ := hv rfl
        obtain ⟨e, he⟩ : ∃ e, ds[a]? = some e := ⟨ds[a], List.getElem?_eq_getElem ha⟩
        have hi : items ds (some (.dct a)) = some e := he
        rw [hi]
        refine ⟨_, _, r.update e, x, rfl, ?_, ?_⟩
        · exact {
            grows := ⟨_, rfl⟩
            roles := by rw [Dict.get?_set, if_pos rfl]; exact items_new ds _
            extras := by rw [Dict.get?_set_ne _ _ (by decide)]; exact items_append hx
            role := fun n => by
              rw [Dict.get?_update _ _ (hd e (List.mem_of_getElem? he))]
              unfold bodyRole
              rw [Dict.get?_cons, if_pos rfl]
              dsimp only
              rw [he]
            extra := fun j => by
              rw [Dict.get?_cons]
              by_cases e : "roles" = j
              · subst e; simp [h2']
              · simp [e]
            other := fun j hj e1 e2 => by
              rw [Dict.get?_set_ne _ _ (Ne.symm e1), Dict.get?_cons, if_neg (Ne.symm e1)]; rfl
            sameRoles := fun h => by simp at h
            newRoles := fun _ => ⟨_, by rw [Dict.get?_set, if_pos rfl], Nat.le_refl _⟩
            keys := fun j h => by
              rcases (mem_set _ _ _ _).1 h with h | h
              · exact .inl h
              · exact .inr (.inl ⟨by simp [h], by rw [h]; exact h2'⟩)
            keys' := fun j h => by
              rcases h with h | ⟨h, h'⟩
              · exact (mem_set _ _ _ _).2 (.inl h)
              · simp at h; exact (mem_set _ _ _ _).2 (.inr h)
            nodup := fun h => Dict.nodup_set h _ _ }
        · intro d hd'
          rcases List.mem_append.1 hd' with h | h
          · exact hd d h
          · rw [List.mem_singleton.1 h]; exact Dict.nodup_update (nodupOf hr) _
      · rw [if_neg h3]
        refine ⟨_, _, r, x, rfl, ?_, hd⟩
        exact {
          grows := ⟨[], (List.append_nil _).symm⟩
          roles := by rw [Dict.get?_set_ne _ _ h3]; exact hr
          extras := by rw [Dict.get?_set_ne _ _ hk]; exact hx
          role := fun n => by rw [bodyRole_cons_ne h3, bodyRole_none (by simp)]; rfl
          extra := fun j => by
            rw [Dict.get?_cons]
            by_cases e : k = j
            · subst e; simp [h2']
            · simp [e]
          other := fun j hj e1 e2 => by
            rw [Dict.get?_set, Dict.get?_cons]
            by_cases e : k = j
            · simp [e]
            · simp [e]
          sameRoles := fun _ => Dict.get?_set_ne _ _ h3
          newRoles := fun h => by simp at h; exact absurd h.symm h3
          keys := fun j h => by
            rcases (mem_set _ _ _ _).1 h with h | h
            · exact .inl h
            · exact .inr (.inl ⟨by simp [h], by rw [h]; exact h2'⟩)
          keys' := fun j h => by
            rcases h with h | ⟨h, h'⟩
            · exact (mem_set _ _ _ _).2 (.inl h)
            · simp at h; exact (mem_set _ _ _ _).2 (.inr h)
          nodup := fun h => Dict.nodup_set h _ _ }

theorem body_cons_roles {k : String} {v : V} {body : Attrs} (hn : Dict.Nodup ((k, v) :: body)) : k = "roles" → "roles" ∉ body.keys := by
  rintro rfl
  simp only [Dict.Nodup, Dict.keys_cons, List.nodup_cons] at hn
  exact hn.1

theorem merged_trans {ds ds1 ds2 : List Attrs} {m m1 m2 r x r1 x1 r2 x2 : Attrs} {k : String} {v : V} {body : Attrs} (hn : Dict.Nodup ((k, v) :: body))
    (hv : ∀ a, Dict.get? ((k, v) :: body) "roles" = some (.dct a) → a < ds.length)
    (h1 : Merged ds ds1 m m1 r x r1 x1 [(k, v)]) (h2 : Merged ds1 ds2 m1 m2 r1 x1 r2 x2 body) : Merged ds ds2 m m2 r x r2 x2 ((k, v) :: body) where
  grows := by
    obtain ⟨l1, e1⟩ := h1.grows
    obtain ⟨l2, e2⟩ := h2.grows
    exact ⟨l1 ++ l2, by rw [e2, e1, List.append_assoc]⟩
  roles := h2.roles
  extras := h2.extras
  role n := by
    obtain ⟨l1, e1⟩ := h1.grows
    rw [h2.role, h1.role]
    by_cases hk : k = "roles"
    · have hb := body_cons_roles hn hk
      rw [bodyRole_none hb]
      unfold bodyRole
      rw [Dict.get?_cons, Dict.get?_cons, if_pos hk, if_pos hk]
      rfl
    · rw [bodyRole_cons_ne hk, bodyRole_cons_ne hk, bodyRole_none (body := []) (by simp), e1, bodyRole_append]
      · rfl
      · intro a ha
        refine hv a ?_
        rw [Dict.get?_cons, if_neg hk]
        exact ha
  extra j := by
    rw [h2.extra, h1.extra, Dict.get?_cons, Dict.get?_cons]
    simp only [Dict.Nodup, Dict.keys_cons, List.nodup_cons] at hn
    by_cases e : k = j
    · subst e
      have : body.get? k = none := (Dict.get?_eq_none _ _).2 hn.1
      rw [this]
      split <;> simp
    · simp only [if_neg e]
      split <;> simp
  other j a b c := by
    rw [h2.other j a b c, h1.other j a b c, Dict.get?_cons, Dict.get?_cons]
    simp only [Dict.Nodup, Dict.keys_cons, List.nodup_cons] at hn
    by_cases e : k = j
    · subst e
      have : body.get? k = none := (Dict.get?_eq_none _ _).2 hn.1
      rw [this]
      simp
    · simp [e]
  sameRoles h := by
    simp only [Dict.keys_cons, List.mem_cons, not_or] at h
    rw [h2.sameRoles h.2, h1.sameRoles (by simpa using h.1)]
  newRoles h := by
    simp only [Dict.keys_cons, List.mem_cons] at h
    obtain ⟨l1, e1⟩ := h1.grows
    by_cases hb : "roles" ∈ body.keys
    · obtain ⟨a, g1, g2⟩ := h2.newRoles hb
      refine ⟨a, g1, ?_⟩
      rw [e1, List.length_append] at g2
      omega
    · rw [h2.sameRoles hb]
      exact h1.newRoles (by simpa using h.resolve_right hb)
  keys j h := by
    rcases h2.keys j h with h | ⟨h, h'⟩ | h
    · rcases h1.keys j h with h | ⟨h, h'⟩ | h
      · exact .inl h
      · exact .inr (.inl ⟨by simp at h; simp [h], h'⟩)
      · exact .inr (.inr h)
    · exact .inr (.inl ⟨by simp [h], h'⟩)
    · exact .inr (.inr h)
  keys' j h := by
    refine h2.keys' j ?_
    rcases h with h | ⟨h, h'⟩
    · exact .inl (h1.keys' j (.inl h))
    · simp only [Dict.keys_cons, List.mem_cons] at h
      rcases h with h | h
      · exact .inl (h1.keys' j (.inr ⟨by simp [h], h'⟩))
      · exact .inr ⟨h, h'⟩
  nodup h := h2.nodup (h1.nodup h)

theorem members_merged : ∀ (body : Attrs) (ds : List Attrs) (m r x : Attrs), (∀ d ∈ ds, d.Nodup) → items ds (m.get? "roles") = some r → items ds (m.get? "extras") = some x →
    Dict.Nodup body → "extras" ∉ body.keys → (∀ v, body.get? "roles" = some v → ∃ a, v = .dct a ∧ a < ds.length) →
    ∃ ds' m' r' x', members ds m body = .ok (ds', m') ∧ Merged ds ds' m m' r x r' x' body ∧ ∀ d ∈ ds', d.Nodup
  | [], ds, m, r, x, hd, hr, hx, _, _, _ => ⟨ds, m, r, x, rfl, merged_refl hr hx, hd⟩
  | (k, v) :: body, ds, m, r, x, hd, hr, hx, hn, he, hv => by
    simp only [Dict.keys_cons, List.mem_cons, not_or] at he
    have hk : k = "roles" → ∃ a, v = .dct a ∧ a < ds.length := by
      rintro rfl
      exact hv v (by rw [Dict.get?_cons, if_pos rfl])
    obtain ⟨ds1, m1, r1, x1, e1, g1, d1⟩ := member_merged hd hr hx (Ne.symm he.1) hk
    have hv' : ∀ a, Dict.get? ((k, v) :: body) "roles" = some (.dct a) → a < ds.length := by
      intro a ha
      obtain ⟨a', e, h⟩ := hv _ ha
      cases e
      exact h
    have hn' := hn
    simp only [Dict.Nodup, Dict.keys_cons, List.nodup_cons] at hn'
    obtain ⟨l1, el⟩ := g1.grows
    obtain ⟨ds2, m2, r2, x2, e2, g2, d2⟩ := members_merged body ds1 m1 r1 x1 d1 g1.roles g1.extras hn'.2 he.2 (by
      intro w hw
      have hkr : k ≠ "roles" := by
        intro e
        have := (Dict.get?_eq_none _ _).2 (body_cons_roles hn e)
        rw [this] at hw
        cases hw
      obtain ⟨a, e, h⟩ := hv w (by rw [Dict.get?_cons, if_neg hkr]; exact hw)
      exact ⟨a, e, by rw [el, List.length_append]; omega⟩)
    refine ⟨ds2, m2, r2, x2, ?_, merged_trans hn hv' g1 g2, d2⟩
    rw [members, e1]
    exact e2

theorem orNew_items {ds : List Attrs} {v : Option V} {d : Attrs} (h : items ds v = some d) :
    (∃ l, (orNew ds v).1 = ds ++ l ∧ ∀ e ∈ l, e = []) ∧ ∃ a, (orNew ds v).2 = .dct a ∧ (orNew ds v).1[a]? = some d ∧ (ds.length ≤ a ∨ (v = some (.dct a) ∧ d ≠ [])) := by
  have new : (ds ++ [([] : Attrs)])[ds.length]? = some [] := items_new ds []
  match v with
  | none => cases h; exact ⟨⟨[[]], rfl, by simp⟩, ds.length, rfl, new, .inl (Nat.le_refl _)⟩
  | some (.dct a) =>
    have h : ds[a]? = some d := h
    by_cases hd : d = []
    · subst hd
      have : truthy ds (.dct a) = false := by simp [truthy, h]
      have e : orNew ds (some (.dct a)) = (ds ++ [[]], .dct ds.length) := by rw [orNew, if_neg (by rw [this]; exact nofun)]
      rw [e]
      exact ⟨⟨[[]], rfl, by simp⟩, ds.length, rfl, new, .inl (Nat.le_refl _)⟩
    · have : truthy ds (.dct a) = true := by simp [truthy, h, hd]
      have e : orNew ds (some (.dct a)) = (ds, .dct a) := by rw [orNew, if_pos this]
      rw [e]
      exact ⟨⟨[], (List.append_nil _).symm, by simp⟩, a, rfl, h, .inr ⟨rfl, hd⟩⟩
  | some .none => cases h
  | some (.bool _) => cases h
  | some (.num _) => cases h
  | some (.other _) => cases h

/-! ## Class statements -/

/-- Every public name among the options of the bases and of the body is an argument of `SchemaOptions`. -/
def NamesKnown (w : World) (bases : List Nat) (body : Attrs) : Prop :=
  (∀ k ∈ body.keys, hidden k = true ∨ k ∈ known) ∧ ∀ c ∈ bases, ∀ o, w.classes[c]? = some o → ∀ k ∈ o.keys, hidden k = true ∨ k ∈ known

/-- The roles of the body are a dict. -/
def RolesDict (w : World) (body : Attrs) : Prop := ∀ v, body.get? "roles" = some v → ∃ a, v = .dct a ∧ a < w.dicts.length

theorem inherited_get {w : World} {b : Nat} {rest : List Nat} {o r x : Attrs} (hb : w.classes[b]? = some o) (ho : Proper w.dicts o r x) {k : String} (hk : k ∈ five) :
    (inherit w.classes [] (b :: rest).reverse).get? k = o.get? k := by
  have hh : hidden k = false := by
    revert hk; revert k; decide
  rw [List.reverse_cons, inherit_append, hb]
  dsimp only
  rw [Dict.get?_update _ _ (nodup_visible ho.nodup), get?_visible, hh]
  have := (Dict.get?_isSome o k).2 (ho.has k hk)
  cases hg : o.get? k with
  | none => rw [hg] at this; cases this
  | some v => rfl

theorem inherit_nodup (cs : List Attrs) : ∀ (l : List Nat) (acc : Attrs), acc.Nodup → (inherit cs acc l).Nodup
  | [], acc, h => h
  | c :: l, acc, h => by
    rw [inherit]
    cases cs[c]? with
    | none => exact inherit_nodup cs l acc h
    | some o => exact inherit_nodup cs l _ (Dict.nodup_update h _)

theorem five_public {k : String} (h : k ∈ five) : hidden k ≠ true := by
  revert h; revert k; decide

theorem five_known {k : String} (h : k ∈ five) : k ∈ known := by
  revert h; revert k; decide

theorem known_cases {k : String} (h : k ∈ known) : k ∈ five ∨ k = "serialize_when_none" := by
  revert h; revert k; decide

/-- Everything about a class statement whose names are known. -/
theorem define_ok (w : World) (hd : ∀ d ∈ w.dicts, d.Nodup) (b : Nat) (rest : List Nat) (o r x : Attrs) (hb : w.classes[b]? = some o) (ho : Proper w.dicts o r x) (body : Attrs)
    (hn : Dict.Nodup body) (hx : "extras" ∉ body.keys) (hr : RolesDict w body) (hk : NamesKnown w (b :: rest) body) (hs : ∀ c ∈ rest, ∀ o, w.classes[c]? = some o → "serialize_when_none" ∉ o.keys) :
    ∃ l o' r' x', define w (b :: rest) (some body) [] = .ok ⟨w.dicts ++ l, w.classes ++ [o']⟩ ∧ Proper (w.dicts ++ l) o' r' x' ∧
      o'.get? "namespace" = (body.get? "namespace").or (o.get? "namespace") ∧
      o'.get? "export_order" = (body.get? "export_order").or (o.get? "export_order") ∧
      o'.get? "export_level" = levelOf body (o.get? "export_level") ∧
      (∀ n, r'.get? n = (bodyRole w.dicts body n).or (r.get? n)) ∧
      (∀ k, hidden k = true → dunder k = false → o'.get? k = (body.get? k).or (x.get? k)) ∧
      (∀ k, hidden k = true → dunder k = false → x'.get? k = (body.get? k).or (x.get? k)) ∧
      (∃ a, o'.get? "roles" = some (.dct a) ∧ (w.dicts.length ≤ a ∨ ("roles" ∉ body.keys ∧ o.get? "roles" = some (.dct a)))) ∧
      ("roles" ∉ body.keys → r ≠ [] → o'.get? "roles" = o.get? "roles") ∧
      ∀ d ∈ w.dicts ++ l, d.Nodup := by
  obtain ⟨ra, hra, hra'⟩ := ho.roles
  obtain ⟨xa, hxa, hxa'⟩ := ho.extras
  have g : ∀ k ∈ five, (inherit w.classes [] (b :: rest).reverse).get? k = o.get? k := fun k hk => inherited_get hb ho hk
  generalize hm0 : inherit w.classes [] (b :: rest).reverse = m0 at g
  have i1 : items w.dicts (m0.get? "roles") = some r := by rw [g "roles" (by decide), hra]; exact hra'
  have i2 : items w.dicts (m0.get? "extras") = some x := by rw [g "extras" (by decide), hxa]; exact hxa'
  have hmn : m0.Nodup := by rw [← hm0]; exact inherit_nodup _ _ _ List.nodup_nil
  have hmk : ∀ k ∈ m0.keys, k ∈ known := by
    intro k hk'
    rw [← hm0, inherit_keys] at hk'
    rcases hk' with h | ⟨c, hc, o1, h1, h2, h3⟩
    · simp at h
    · exact (hk.2 c (List.mem_reverse.1 hc) o1 h1 k h2).resolve_left (by rw [h3]; exact nofun)
  have hms : m0.get? "serialize_when_none" = none := by
    rw [Dict.get?_eq_none, ← hm0, inherit_keys]
    rintro (h | ⟨c, hc, o1, h1, h2, h3⟩)
    · simp at h
    · rcases List.mem_cons.1 (List.mem_reverse.1 hc) with e | e
      · subst e
        rw [hb] at h1
        cases h1
        rcases ho.only _ h2 with h | h
        · revert h; decide
        · revert h; decide
      · exact hs c e o1 h1 h2
  obtain ⟨ds1, m1, r1, x1, e1, M, hd1⟩ := members_merged body w.dicts m0 r x hd i1 i2 hn hx hr
  obtain ⟨l1, el1⟩ := M.grows
  have hall : (m1.keys.all fun k => known.contains k || Dict.has ([] : Attrs) k) = true := by
    rw [List.all_eq_true]
    intro k hk'
    have : k ∈ known := by
      rcases M.keys k hk' with h | ⟨h, h'⟩ | h
      · exact hmk k h
      · exact (hk.1 k h).resolve_left (by rw [h']; exact nofun)
      · subst h; decide
    simp [this]
  obtain ⟨⟨l2, el2, hl2⟩, a2, ea2, ga2, sa2⟩ := orNew_items M.roles
  have M4 : items (orNew ds1 (m1.get? "roles")).1 (m1.get? "extras") = some x1 := by rw [el2]; exact items_append M.extras
  obtain ⟨⟨l3, el3, hl3⟩, a3, ea3, ga3, sa3⟩ := orNew_items M4
  have hx1 : x1.Nodup := by
    match hv : m1.get? "extras", M.extras with
    | none, h => cases h; exact List.nodup_nil
    | some (.dct a), h => exact hd1 _ (List.mem_of_getElem? h)
  have hini : init [] ds1 m1 = .ok ((orNew (orNew ds1 (m1.get? "roles")).1 (m1.get? "extras")).1, (plainAttrs m1 (.dct a2) (.dct a3)).update x1) := by
    unfold init
    rw [if_pos hall, ea3, show items _ (some (V.dct a3)) = some x1 from ga3, ea2]
    rfl
  have hx1h : ∀ k ∈ x1.keys, hidden k = true := by
    intro k hk'
    have h1 := (Dict.get?_isSome x1 k).2 hk'
    rw [M.extra k] at h1
    split at h1
    · rename_i h; exact h.1
    · exact ho.private_ k ((Dict.get?_isSome x k).1 h1)
  have pub : ∀ k, hidden k = false → ((plainAttrs m1 (.dct a2) (.dct a3)).update x1).get? k = (plainAttrs m1 (.dct a2) (.dct a3)).get? k := by
    intro k hk'
    exact Dict.get?_update_none _ _ fun h => by rw [hx1h k h] at hk'; cases hk'
  have hlev : level m1 = (levelOf body (o.get? "export_level")).getD (.num 10) := by
    unfold level levelOf
    rw [M.other "serialize_when_none" (by decide) (by decide) (by decide), hms, M.other "export_level" (by decide) (by decide) (by decide), g "export_level" (by decide), Option.or_none]
    cases hq : body.get? "serialize_when_none" with
    | none => rfl
    | some v =>
      cases v with
      | bool b => cases b <;> rfl
      | _ => rfl
  have some_of : ∀ k ∈ five, ∃ v, o.get? k = some v := by
    intro k hk'
    have := (Dict.get?_isSome o k).2 (ho.has k hk')
    cases h : o.get? k with
    | none => rw [h] at this; cases this
    | some v => exact ⟨v, rfl⟩
  refine ⟨l1 ++ l2 ++ l3, (plainAttrs m1 (.dct a2) (.dct a3)).update x1, r1, x1, ?_, ?_, ?_, ?_, ?_, M.role, ?_, ?_, ?_, ?_, ?_⟩
  · unfold define
    rw [hm0]
    show (match members w.dicts m0 body with | .error e => _ | .ok (ds, m) => _) = _
    rw [e1]
    dsimp only
    rw [hini]
    dsimp only
    rw [el3, el2, el1, List.append_assoc, List.append_assoc, List.append_assoc]
  · have eds : w.dicts ++ (l1 ++ l2 ++ l3) = (orNew (orNew ds1 (m1.get? "roles")).1 (m1.get? "extras")).1 := by
      rw [el3, el2, el1, List.append_assoc, List.append_assoc, List.append_assoc]
    rw [eds]
    refine ⟨Dict.nodup_update (by unfold Dict.Nodup plainAttrs; simp [Dict.keys]) _, ?_, ?_, ⟨a2, ?_, ?_⟩, ⟨a3, ?_, ga3⟩, hx1h⟩
    · intro k hk'
      rw [Dict.mem_keys_update]
      exact .inl hk'
    · intro k hk'
      rw [Dict.mem_keys_update] at hk'
      rcases hk' with h | h
      · exact .inl h
      · exact .inr (hx1h k h)
    · rw [pub _ (by decide)]; rfl
    · rw [el3, List.getElem?_append_left (List.getElem?_eq_some_iff.1 ga2).1]; exact ga2
    · rw [pub _ (by decide)]; rfl
  · rw [pub _ (by decide)]
    show some ((m1.get? "namespace").getD .none) = _
    rw [M.other "namespace" (by decide) (by decide) (by decide), g "namespace" (by decide)]
    obtain ⟨v, hv⟩ := some_of "namespace" (by decide)
    rw [hv]
    cases body.get? "namespace" <;> rfl
  · rw [pub _ (by decide)]
    show some ((m1.get? "export_order").getD (.bool false)) = _
    rw [M.other "export_order" (by decide) (by decide) (by decide), g "export_order" (by decide)]
    obtain ⟨v, hv⟩ := some_of "export_order" (by decide)
    rw [hv]
    cases body.get? "export_order" <;> rfl
  · rw [pub _ (by decide)]
    show some (level m1) = _
    rw [hlev]
    obtain ⟨v, hv⟩ := some_of "export_level" (by decide)
    rw [hv]
    unfold levelOf
    split
    · rfl
    · rfl
    · cases body.get? "export_level" <;> rfl
  · intro k h1 h2
    rw [Dict.get?_update _ _ hx1, M.extra k, if_pos ⟨h1, h2⟩]
    have : (plainAttrs m1 (.dct a2) (.dct a3)).get? k = none := by
      rw [Dict.get?_eq_none]
      intro h
      exact five_public h h1
    rw [this, Option.or_none]
  · intro k h1 h2
    rw [M.extra k, if_pos ⟨h1, h2⟩]
  · refine ⟨a2, by rw [pub _ (by decide)]; rfl, ?_⟩
    rcases sa2 with h | ⟨h, -⟩
    · left; rw [el1, List.length_append] at h; omega
    · by_cases hb' : "roles" ∈ body.keys
      · obtain ⟨a, f1, f2⟩ := M.newRoles hb'
        rw [f1] at h
        cases h
        exact .inl f2
      · rw [M.sameRoles hb', g "roles" (by decide)] at h
        exact .inr ⟨hb', h⟩
  · intro h1 h2
    rw [pub _ (by decide)]
    show some (V.dct a2) = _
    have hs := M.sameRoles h1
    rw [g "roles" (by decide), hra] at hs
    have h3 := M.roles
    rw [hs] at h3
    have h3 : ds1[ra]? = some r1 := h3
    have h4 : ds1[ra]? = some r := by
      rw [el1, List.getElem?_append_left (List.getElem?_eq_some_iff.1 hra').1]; exact hra'
    rw [h4] at h3
    cases h3
    have : orNew ds1 (m1.get? "roles") = (ds1, .dct ra) := by
      rw [hs, orNew, if_pos]
      simp [truthy, h4, h2]
    rw [this] at ea2
    cases ea2
    exact hra.symm
  · intro d hd'
    have : d ∈ ds1 ++ (l2 ++ l3) := by rw [el1, List.append_assoc, ← List.append_assoc l1]; exact hd'
    rcases List.mem_append.1 this with h | h
    · exact hd1 d h
    · rcases List.mem_append.1 h with h | h
      · rw [hl2 d h]; exact List.nodup_nil
      · rw [hl3 d h]; exact List.nodup_nil

/-- Every class has an ordinary options object, and dicts have distinct keys. -/
structure Ordinary (w : World) : Prop where
  dicts : ∀ d ∈ w.dicts, d.Nodup
  classes : ∀ (c : Nat) (o : Attrs), w.classes[c]? = some o → ∃ r x, Proper w.dicts o r x

theorem proper_append {ds l : List Attrs} {o r x : Attrs} (h : Proper ds o r x) : Proper (ds ++ l) o r x := by
  obtain ⟨a, h1, h2⟩ := h.roles
  obtain ⟨b, h3, h4⟩ := h.extras
  refine ⟨h.nodup, h.has, h.only, ⟨a, h1, ?_⟩, ⟨b, h3, ?_⟩, h.private_⟩
  · rw [List.getElem?_append_left (List.getElem?_eq_some_iff.1 h2).1]; exact h2
  · rw [List.getElem?_append_left (List.getElem?_eq_some_iff.1 h4).1]; exact h4

theorem namesKnown_of_ordinary {w : World} (hw : Ordinary w) {bases : List Nat} {body : Attrs} (h : ∀ k ∈ body.keys, hidden k = true ∨ k ∈ known) : NamesKnown w bases body := by
  refine ⟨h, ?_⟩
  intro c _ o ho k hk
  obtain ⟨r, x, hp⟩ := hw.classes c o ho
  rcases hp.only k hk with h | h
  · exact .inr (five_known h)
  · exact .inl h

/-- **C100, inheritance of options.**  In a program of ordinary classes, a class statement whose `Options` names known options only succeeds and gives the class these options: `namespace`,
`export_order` and `export_level` as the body says (`serialize_when_none` beats `export_level`), else as the leftmost base; every role of the body, else of the leftmost base; every private
option (`_name`) of the body, else of the leftmost base.  Nothing that existed before is changed. -/
theorem C100_options (w : World) (hw : Ordinary w) (b : Nat) (rest : List Nat) (o r x : Attrs) (hb : w.classes[b]? = some o) (ho : Proper w.dicts o r x) (body : Attrs)
    (hn : Dict.Nodup body) (hx : "extras" ∉ body.keys) (hr : RolesDict w body) (hk : ∀ k ∈ body.keys, hidden k = true ∨ k ∈ known) :
    ∃ l o' r' x', define w (b :: rest) (some body) [] = .ok ⟨w.dicts ++ l, w.classes ++ [o']⟩ ∧ Ordinary ⟨w.dicts ++ l, w.classes ++ [o']⟩ ∧ Proper (w.dicts ++ l) o' r' x' ∧
      o'.get? "namespace" = (body.get? "namespace").or (o.get? "namespace") ∧
      o'.get? "export_order" = (body.get? "export_order").or (o.get? "export_order") ∧
      o'.get? "export_level" = levelOf body (o.get? "export_level") ∧
      (∀ n, r'.get? n = (bodyRole w.dicts body n).or (r.get? n)) ∧
      (∀ k, hidden k = true → dunder k = false → o'.get? k = (body.get? k).or (x.get? k)) ∧
      (∀ k, hidden k = true → dunder k = false → x'.get? k = (body.get? k).or (x.get? k)) := by
  obtain ⟨l, o', r', x', h1, h2, h3, h4, h5, h6, h7, h8, -, -, h9⟩ := define_ok w hw.dicts b rest o r x hb ho body hn hx hr (namesKnown_of_ordinary hw hk) (by
    intro c _ o ho h
    obtain ⟨r, x, hp⟩ := hw.classes c o ho
    rcases hp.only _ h with h | h <;> revert h <;> decide)
  refine ⟨l, o', r', x', h1, ⟨h9, ?_⟩, h2, h3, h4, h5, h6, h7, h8⟩
  intro c q hq
  rw [List.getElem?_append] at hq
  split at hq
  · obtain ⟨r, x, hp⟩ := hw.classes c q hq
    exact ⟨r, x, proper_append hp⟩
  · have := List.mem_of_getElem? hq
    rw [List.mem_singleton] at this
    subst this
    exact ⟨r', x', h2⟩

/-- **C100, no `Options`.**  A class without `Options` has the options of its leftmost base. -/
theorem C100_no_options (w : World) (bases : List Nat) (more : Attrs) : define w bases none more = define w bases (some []) more := rfl

/-- **C100, unknown names.**  If a public name among the options of the body is no argument of `SchemaOptions`, the class statement raises `TypeError`. -/
theorem C100_unknown (w : World) (hw : Ordinary w) (b : Nat) (rest : List Nat) (o : Attrs) (hb : w.classes[b]? = some o) (body : Attrs)
    (hn : Dict.Nodup body) (hx : "extras" ∉ body.keys) (hr : RolesDict w body) (k : String) (hk : k ∈ body.keys) (hh : hidden k = false) (hu : k ∉ known) :
    define w (b :: rest) (some body) [] = .error .type := by
  obtain ⟨r, x, ho⟩ := hw.classes b o hb
  obtain ⟨ra, hra, hra'⟩ := ho.roles
  obtain ⟨xa, hxa, hxa'⟩ := ho.extras
  have i1 : items w.dicts ((inherit w.classes [] (b :: rest).reverse).get? "roles") = some r := by rw [inherited_get hb ho (by decide), hra]; exact hra'
  have i2 : items w.dicts ((inherit w.classes [] (b :: rest).reverse).get? "extras") = some x := by rw [inherited_get hb ho (by decide), hxa]; exact hxa'
  obtain ⟨ds1, m1, r1, x1, e1, M, hd1⟩ := members_merged body w.dicts _ r x hw.dicts i1 i2 hn hx hr
  unfold define
  show (match members w.dicts _ body with | .error e => _ | .ok (ds, m) => _) = _
  rw [e1]
  dsimp only
  have : (m1.keys.all fun k => known.contains k || Dict.has ([] : Attrs) k) = false := by
    rw [Bool.eq_false_iff]
    intro h
    rw [List.all_eq_true] at h
    have := h k (M.keys' k (.inr ⟨hk, hh⟩))
    simp [hu, Dict.has] at this
  unfold init
  rw [this]
  rfl

theorem member_keeps {ds ds' : List Attrs} {m m' : Attrs} {k : String} {v : V} (h : member ds m k v = .ok (ds', m')) (j : String) (hj : j ∈ m.keys) : j ∈ m'.keys := by
  unfold member at h
  split at h
  · cases h; exact hj
  · split at h
    · split at h
      · cases h; exact (mem_set _ _ _ _).2 (.inl hj)
      · cases h
    · split at h
      · split at h
        · cases h; exact (mem_set _ _ _ _).2 (.inl hj)
        · cases h
        · cases h
      · cases h; exact (mem_set _ _ _ _).2 (.inl hj)

theorem members_keeps : ∀ {body : List (String × V)} {ds ds' : List Attrs} {m m' : Attrs}, members ds m body = .ok (ds', m') → ∀ j ∈ m.keys, j ∈ m'.keys
  | [], ds, ds', m, m', h, j, hj => by rw [members] at h; cases h; exact hj
  | p :: body, ds, ds', m, m', h, j, hj => by
    rw [members] at h
    cases hm : member ds m p.1 p.2 with
    | error e => rw [hm] at h; cases h
    | ok q =>
      rw [hm] at h
      exact members_keeps h j (member_keeps hm j hj)

/-- **C100, what fails.**  A model whose options object has a public attribute that `SchemaOptions` does not know (through `extras`, or through an options class of its own given as
`__optionsclass__`) cannot be subclassed, unless the subclass names an options class that knows it. -/
theorem C100_unknown_inherited (w : World) (bases : List Nat) (c : Nat) (hc : c ∈ bases) (o : Attrs) (ho : w.classes[c]? = some o) (k : String) (hk : k ∈ o.keys) (hh : hidden k = false)
    (hu : k ∉ known) (body : Option (List (String × V))) (more : Attrs) (hm : k ∉ more.keys) : ∃ e, define w bases body more = .error e := by
  unfold define
  cases h : members w.dicts (inherit w.classes [] bases.reverse) (body.getD []) with
  | error e => exact ⟨e, rfl⟩
  | ok q =>
    obtain ⟨ds, m⟩ := q
    dsimp only
    have h1 : k ∈ m.keys := members_keeps h k ((inherit_keys _ _ _ _).2 (.inr ⟨c, List.mem_reverse.2 hc, o, ho, hk, hh⟩))
    have : (m.keys.all fun k => known.contains k || more.has k) = false := by
      rw [Bool.eq_false_iff]
      intro h
      rw [List.all_eq_true] at h
      have := h k h1
      have hm' : more.has k = false := by
        rw [Bool.eq_false_iff, ne_eq, Dict.has_iff]; exact hm
      simp [hu, hm'] at this
    unfold init
    rw [this]
    exact ⟨_, rfl⟩

/-! ## Sharing -/

/-- **C100, own roles.**  A class whose body has `roles` gets a new dict: later changes of the roles of one class are not seen by the other. -/
theorem C100_roles_own (w : World) (hw : Ordinary w) (b : Nat) (rest : List Nat) (o : Attrs) (hb : w.classes[b]? = some o) (body : Attrs)
    (hn : Dict.Nodup body) (hx : "extras" ∉ body.keys) (hr : RolesDict w body) (hk : ∀ k ∈ body.keys, hidden k = true ∨ k ∈ known) (hroles : "roles" ∈ body.keys) (w' : World)
    (h : define w (b :: rest) (some body) [] = .ok w') :
    ∃ o' a, w'.classes = w.classes ++ [o'] ∧ o'.get? "roles" = some (.dct a) ∧ ∀ (c : Nat) (p : Attrs), w.classes[c]? = some p → p.get? "roles" ≠ some (.dct a) := by
  obtain ⟨r, x, ho⟩ := hw.classes b o hb
  obtain ⟨l, o', r', x', h1, -, -, -, -, -, -, -, ⟨a, ha, hs⟩, -, -⟩ := define_ok w hw.dicts b rest o r x hb ho body hn hx hr (namesKnown_of_ordinary hw hk) (by
    intro c _ o ho h
    obtain ⟨r, x, hp⟩ := hw.classes c o ho
    rcases hp.only _ h with h | h <;> revert h <;> decide)
  rw [h1] at h
  cases h
  refine ⟨o', a, rfl, ha, ?_⟩
  intro c p hp e
  obtain ⟨r, x, q⟩ := hw.classes c p hp
  obtain ⟨a', e1, e2⟩ := q.roles
  rw [e] at e1
  cases e1
  have := (List.getElem?_eq_some_iff.1 e2).1
  rcases hs with hs | ⟨hs, -⟩
  · omega
  · exact hs hroles

/-- **C100, what fails.**  A class without roles of its own shares the dict of its leftmost base, if that has roles: roles added to the one are roles of the other. -/
theorem C100_roles_shared (w : World) (hw : Ordinary w) (b : Nat) (rest : List Nat) (o r x : Attrs) (hb : w.classes[b]? = some o) (ho : Proper w.dicts o r x) (hne : r ≠ []) (body : Attrs)
    (hn : Dict.Nodup body) (hx : "extras" ∉ body.keys) (hk : ∀ k ∈ body.keys, hidden k = true ∨ k ∈ known) (hroles : "roles" ∉ body.keys) (w' : World)
    (h : define w (b :: rest) (some body) [] = .ok w') : ∃ o' a, w'.classes = w.classes ++ [o'] ∧ o'.get? "roles" = some (.dct a) ∧ o.get? "roles" = some (.dct a) := by
  obtain ⟨l, o', r', x', h1, -, -, -, -, -, -, -, -, hs, -⟩ := define_ok w hw.dicts b rest o r x hb ho body hn hx (by
      intro v hv; rw [(Dict.get?_eq_none _ _).2 hroles] at hv; cases hv) (namesKnown_of_ordinary hw hk) (by
    intro c _ o ho h
    obtain ⟨r, x, hp⟩ := hw.classes c o ho
    rcases hp.only _ h with h | h <;> revert h <;> decide)
  rw [h1] at h
  cases h
  obtain ⟨a, ha, -⟩ := ho.roles
  exact ⟨o', a, rfl, by rw [hs hroles hne, ha], ha⟩

/-! ## Histories -/

/-- The events of an ordinary program: class statements as above with existing bases, and changes of dicts that are no `extras` of a class. -/
inductive Fine (w : World) : Event → Prop
  | define (b : Nat) (rest : List Nat) (body : Attrs) (hb : b < w.classes.length) (hn : Dict.Nodup body) (hx : "extras" ∉ body.keys) (hr : RolesDict w body) :
    Fine w (.define (b :: rest) (some body) [])
  | make (d : Attrs) : Fine w (.make d)
  | put (a : Nat) (k : String) (v : V) (h : ∀ (c : Nat) (o : Attrs), w.classes[c]? = some o → o.get? "extras" ≠ some (.dct a)) : Fine w (.put a k v)

/-- A program all of whose events are ordinary. -/
def FineAll : World → List Event → Prop
  | _, [] => True
  | w, e :: es => Fine w e ∧ FineAll (step w e) es

theorem ordinary_start : Ordinary start := by
  refine ⟨by unfold Dict.Nodup; decide, ?_⟩
  intro c o h
  have hs : start = ⟨[[], []], [[("namespace", .none), ("roles", .dct 0), ("export_level", .num 10), ("export_order", .bool false), ("extras", .dct 1)]]⟩ := by decide
  rw [hs] at h ⊢
  have := List.mem_of_getElem? h
  rw [List.mem_singleton] at this
  subst this
  exact ⟨[], [], by unfold Dict.Nodup; decide, by decide, by decide, ⟨0, rfl, rfl⟩, ⟨1, rfl, rfl⟩, by decide⟩

/-- **C100, histories.**  In every history of ordinary class statements (failing ones included) and changes of roles, all classes have ordinary options, so that the theorems above apply at
every moment. -/
theorem C100_history (es : List Event) (h : FineAll start es) : Ordinary (run es) := by
  have key : ∀ (es : List Event) (w : World), Ordinary w → FineAll w es → Ordinary (es.foldl step w) := by
    intro es
    induction es with
    | nil => intro w hw _; exact hw
    | cons e es ih =>
      intro w hw h
      refine ih (step w e) ?_ h.2
      cases h.1 with
      | make d =>
        refine ⟨?_, fun c o ho => ?_⟩
        · intro d' hd'
          rcases List.mem_append.1 hd' with h | h
          · exact hw.dicts d' h
          · rw [List.mem_singleton.1 h]; exact Dict.nodup_update (d := []) List.nodup_nil _
        · obtain ⟨r, x, hp⟩ := hw.classes c o ho
          exact ⟨r, x, proper_append hp⟩
      | put a k v hx =>
        refine ⟨?_, fun c o ho => ?_⟩
        · intro d' hd'
          obtain ⟨i, hi⟩ := List.mem_iff_getElem?.1 hd'
          have hi : (w.dicts.modify a fun d => d.set k v)[i]? = some d' := hi
          rw [List.getElem?_modify] at hi
          cases hd : w.dicts[i]? with
          | none => rw [hd] at hi; cases hi
          | some d =>
            rw [hd] at hi
            have hn := hw.dicts d (List.mem_of_getElem? hd)
            simp only [Option.map_eq_map, Option.map_some, Option.some.injEq] at hi
            subst hi
            split
            · exact Dict.nodup_set hn _ _
            · exact hn
        · obtain ⟨r, x, hp⟩ := hw.classes c o ho
          obtain ⟨ra, h1, h2⟩ := hp.roles
          obtain ⟨xa, h3, h4⟩ := hp.extras
          have hxa : a ≠ xa := by
            rintro rfl
            exact hx c o ho h3
          refine ⟨if a = ra then r.set k v else r, x, hp.nodup, hp.has, hp.only, ⟨ra, h1, ?_⟩, ⟨xa, h3, ?_⟩, hp.private_⟩
          · show (w.dicts.modify a fun d => d.set k v)[ra]? = _
            rw [List.getElem?_modify, h2]
            by_cases e : a = ra <;> simp [e]
          · show (w.dicts.modify a fun d => d.set k v)[xa]? = _
            rw [List.getElem?_modify, h4]
            simp [hxa]
      | define b rest body hb hn hx hr =>
        obtain ⟨o, ho⟩ : ∃ o, w.classes[b]? = some o := ⟨_, List.getElem?_eq_getElem hb⟩
        by_cases hk : ∀ k ∈ body.keys, hidden k = true ∨ k ∈ known
        · obtain ⟨r, x, hp⟩ := hw.classes b o ho
          obtain ⟨l, o', r', x', h1, h2, -⟩ := C100_options w hw b rest o r x ho hp body hn hx hr hk
          show Ordinary (match define w (b :: rest) (some body) [] with | .ok w' => w' | .error _ => w)
          rw [h1]
          exact h2
        · obtain ⟨k, hk⟩ := Classical.not_forall.1 hk
          obtain ⟨h1, h2⟩ := Classical.not_imp.1 hk
          rw [not_or] at h2
          show Ordinary (match define w (b :: rest) (some body) [] with | .ok w' => w' | .error _ => w)
          rw [C100_unknown w hw b rest o ho body hn hx hr k h1 (by simpa using h2.1) h2.2]
          exact hw
  exact key es start ordinary_start h

/-! ## What fails -/

/-- **C100, what fails.**  Public `extras`: the model exists, its options have the attribute, but the model cannot be subclassed. -/
theorem C100_counterexample_extras :
    (let w := run [.make [("colour", .num 3)], .define [0] (some [("extras", .dct 2)]) []]
    (w.classes[1]?.bind (Dict.get? · "colour"), define w [1] none [])) = (some (.num 3), .error .type) := by rfl

/-- **C100, what fails.**  If a body has `extras` and private options, the private options are lost: members are read in the order of their names, and `extras` comes last. -/
theorem C100_counterexample_private :
    (let w := run [.make [("_b", .num 2)], .define [0] (some [("_a", .num 1), ("extras", .dct 2)]) []]
    (w.classes[1]?.bind (Dict.get? · "_a"), w.classes[1]?.bind (Dict.get? · "_b"))) = (none, some (.num 2)) := by decide +kernel

/-- **C100, what fails.**  The roles and private options of the second base are lost, as a whole. -/
theorem C100_counterexample_bases :
    (let w := run [.make [("public", .other 1)], .define [0] (some [("_a", .num 1), ("roles", .dct 2)]) [], .define [0] none [], .define [2, 1] none []]
    (w.classes[3]?.bind (Dict.get? · "_a"), (w.classes[3]?.bind (Dict.get? · "roles")).bind fun v => items w.dicts (some v))) = (none, some []) := by decide +kernel

/-- **C100, what fails.**  A role added to the options of a subclass is a role of the base. -/
theorem C100_counterexample_shared :
    (let w := run [.make [("public", .other 1)], .define [0] (some [("roles", .dct 2)]) [], .define [1] none [], .put 3 "admin" (.other 2)]
    ((w.classes[2]?.bind (Dict.get? · "roles")), (w.classes[1]?.bind (Dict.get? · "roles")).bind fun v => items w.dicts (some v))) =
      (some (.dct 3), some [("public", .other 1), ("admin", .other 2)]) := by decide +kernel

/-- **C100, what fails.**  A class of options of one's own is not inherited: the subclass uses `SchemaOptions`, which refuses the additional option. -/
theorem C100_counterexample_optionsclass :
    (let w := run [.define [0] (some [("colour", .num 1)]) [("colour", .none)]]
    (w.classes[1]?.bind (Dict.get? · "colour"), define w [1] none [], (define w [1] none [("colour", .none)]).isOk)) = (some (.num 1), .error .type, true) := by rfl

/-! ### Dunder names, and `extras` in a class body -/

theorem members_append : ∀ (b1 b2 : List (String × V)) (ds : List Attrs) (m : Attrs),
    members ds m (b1 ++ b2) = match members ds m b1 with | .ok (ds, m) => members ds m b2 | .error e => .error e
  | [], b2, ds, m => rfl
  | p :: b1, b2, ds, m => by
    rw [List.cons_append, members, members]
    cases member ds m p.1 p.2 with
    | error e => rfl
    | ok q => exact members_append b1 b2 q.1 q.2

/-- **C100, names with two underscores.**  A member of `Options` whose name starts with two underscores (`__doc__`, `__module__`, ...) has no effect at all, wherever it stands. -/
theorem C100_dunder (w : World) (bases : List Nat) (b1 b2 : List (String × V)) (more : Attrs) (rest : List Char) (v : V) :
    define w bases (some (b1 ++ (String.ofList ('_' :: '_' :: rest), v) :: b2)) more = define w bases (some (b1 ++ b2)) more := by
  have hk : dunder (String.ofList ('_' :: '_' :: rest)) = true := by simp [dunder]
  unfold define
  simp only [Option.getD_some]
  rw [members_append, members_append]
  cases members w.dicts (inherit w.classes [] bases.reverse) b1 with
  | error e => rfl
  | ok q => simp only [members, member, hk, if_true]

/-- **C100, `extras` that is no dict.**  `extras = v` in the options of a body is read as `{}` if `v` is false (`None`, `False`, `0`): the class then has no private options at all; for every other `v` that is no dict the class statement raises `AttributeError`. -/
theorem C100_extras_value (w : World) (hw : Ordinary w) (b : Nat) (rest : List Nat) (o r x : Attrs) (hb : w.classes[b]? = some o) (ho : Proper w.dicts o r x) (v : V) (hv : ∀ a, v ≠ .dct a) :
    (v = .none ∨ v = .bool false ∨ v = .num 0 →
      ∃ w' o' a, define w (b :: rest) (some [("extras", v)]) [] = .ok w' ∧ w'.classes = w.classes ++ [o'] ∧ (∀ k, hidden k = true → o'.get? k = none) ∧
        o'.get? "extras" = some (.dct a) ∧ w'.dicts[a]? = some []) ∧
    (¬ (v = .none ∨ v = .bool false ∨ v = .num 0) → define w (b :: rest) (some [("extras", v)]) [] = .error .attribute) := by
  obtain ⟨ra, hra, hra'⟩ := ho.roles
  have hgr : ((inherit w.classes [] (b :: rest).reverse).set "extras" v).get? "roles" = some (.dct ra) := by
    rw [Dict.get?_set_ne _ _ (by decide), inherited_get hb ho (by decide), hra]
  have hge : ((inherit w.classes [] (b :: rest).reverse).set "extras" v).get? "extras" = some v := Dict.get?_set_self _ _ _
  have hkeys : (((inherit w.classes [] (b :: rest).reverse).set "extras" v).keys.all fun k => known.contains k || Dict.has ([] : Attrs) k) = true := by
    rw [List.all_eq_true]
    intro k hk
    rcases (mem_set _ _ _ _).1 hk with h | rfl
    · rcases (inherit_keys _ _ _ _).1 h with h | ⟨c, _, o, ho, hk, hh⟩
      · cases h
      · obtain ⟨r, x, hp⟩ := hw.classes c o ho
        rcases hp.only k hk with h | h
        · simp [five_known h]
        · rw [hh] at h; cases h
    · decide
  obtain ⟨l, a, h1, h2⟩ : ∃ l a, orNew w.dicts (some (.dct ra)) = (w.dicts ++ l, .dct a) ∧ True := by
    cases h : truthy w.dicts (.dct ra) with
    | true => exact ⟨[], ra, by simp [orNew, h], trivial⟩
    | false => exact ⟨[[]], w.dicts.length, by simp [orNew, h], trivial⟩
  have hd : define w (b :: rest) (some [("extras", v)]) [] =
      match init [] w.dicts ((inherit w.classes [] (b :: rest).reverse).set "extras" v) with
      | .error e => .error e
      | .ok (ds, o) => .ok { dicts := ds, classes := w.classes ++ [o] } := by
    have h1 : dunder "extras" = false := by decide
    have h2 : hidden "extras" = false := by decide
    have h3 : ("extras" = "roles") = False := by decide
    simp only [define, Option.getD_some, members, member, h1, h2, h3, Bool.false_eq_true, if_false]
    rfl
  rw [hd]
  unfold init
  rw [hkeys, hgr, hge, h1]
  simp only [if_true]
  constructor
  · intro h
    have ht : truthy (w.dicts ++ l) v = false := by rcases h with rfl | rfl | rfl <;> rfl
    have hn : orNew (w.dicts ++ l) (some v) = ((w.dicts ++ l) ++ [[]], .dct (w.dicts ++ l).length) := by simp only [orNew, ht]; rfl
    rw [hn]
    simp only [items_new]
    refine ⟨_, _, _, rfl, rfl, ?_, rfl, ?_⟩
    · intro k hk
      refine (Dict.get?_eq_none _ _).2 ?_
      intro hm
      have : k ∈ five := hm
      exact five_public this hk
    · exact items_new (w.dicts ++ l) []
  · intro h
    have ht : truthy (w.dicts ++ l) v = true := by
      cases v with
      | none => exact absurd (.inl rfl) h
      | bool c => cases c with
        | true => rfl
        | false => exact absurd (.inr (.inl rfl)) h
      | num n => have : n ≠ 0 := fun e => h (.inr (.inr (by rw [e]))); simpa [truthy] using this
      | dct a => exact absurd rfl (hv a)
      | other n => rfl
    have hn : orNew (w.dicts ++ l) (some v) = (w.dicts ++ l, v) := by simp only [orNew, ht, if_true]
    rw [hn]
    cases v with
    | none => exact absurd (.inl rfl) h
    | dct a => exact absurd rfl (hv a)
    | _ => rfl

/-! ## The hypotheses are met -/

/-- Events of an ordinary program: a base with roles, a private option and a level, and a subclass with another role. -/
def sampleEvents : List Event :=
  [.make [("public", .other 1)], .make [("admin", .other 2)],
   .define [0] (some [("_index", .num 5), ("export_level", .num 2), ("roles", .dct 2)]) [],
   .define [1, 0] (some [("roles", .dct 3), ("serialize_when_none", .bool false)]) []]

/-- The options of the subclass. -/
example : (let w := run sampleEvents
    (w.classes[2]?.bind (Dict.get? · "export_level"), w.classes[2]?.bind (Dict.get? · "_index"), (w.classes[2]?.bind (Dict.get? · "roles")).bind fun v => items w.dicts (some v))) =
      (some (.num 1), some (.num 5), some [("public", .other 1), ("admin", .other 2)]) := by decide +kernel

example : FineAll start sampleEvents := by
  refine ⟨.make _, .make _, .define 0 [] _ (by decide) (by unfold Dict.Nodup; decide) (by decide) ?_, .define 1 [0] _ (by decide +kernel) (by unfold Dict.Nodup; decide) (by decide) ?_, trivial⟩
  · intro v hv
    cases hv
    exact ⟨2, rfl, by decide +kernel⟩
  · intro v hv
    cases hv
    exact ⟨3, rfl, by decide +kernel⟩

-- `extras = 0` in a class body is no error, `extras = 5` is one
example := (C100_extras_value start ordinary_start 0 [] _ _ _ rfl ((ordinary_start.classes 0 _ rfl).choose_spec.choose_spec) (.num 0) nofun).1 (.inr (.inr rfl))
example := (C100_extras_value start ordinary_start 0 [] _ _ _ rfl ((ordinary_start.classes 0 _ rfl).choose_spec.choose_spec) (.num 5) nofun).2 (by decide)
example := C100_dunder start [0] [("_a", .num 1)] [] [] ['d', 'o', 'c'] (.num 2)

end Verif.Options
