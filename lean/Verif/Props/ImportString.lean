import Verif.Lib.ImportString

/-!
# C99: model references by dotted name
-/
namespace Verif.ImportString

/-! ## Specification -/

/-- Attributes of attributes. -/
def chain (M : Modules) : Obj → List String → Option Obj
  | o, [] => some o
  | o, a :: as =>
    match M.attr o a with
    | some o' => chain M o' as
    | none => none

/-- `m` is the longest prefix of the name that can be imported (or whose import raises something else than `ImportError`); what is left are attributes. -/
structure Longest (M : Modules) (name m attrs : List String) : Prop where
  split : name = m ++ attrs
  nonempty : m ≠ []
  found : M.load m ≠ .missing
  longest : ∀ m' as, name = m' ++ as → m.length < m'.length → M.load m' = .missing

/-! ## Resolution -/

theorem chain_snoc (M : Modules) : ∀ (as : List String) (o : Obj) (p : String),
    chain M o (as ++ [p]) = match chain M o as with | some o' => M.attr o' p | none => none
  | [], o, p => by
    show (match M.attr o p with | some o' => some o' | none => none) = M.attr o p
    cases M.attr o p <;> rfl
  | a :: as, o, p => by
    rw [List.cons_append, chain, chain]
    cases M.attr o a with
    | none => rfl
    | some o' => exact chain_snoc M as o' p

/-- The outcome for a module and the attributes left over. -/
def outcome (M : Modules) (m : Imp) (attrs : List String) : Found :=
  match m with
  | .ok o =>
    match chain M o attrs with
    | some o' => .obj o'
    | none => .notFound
  | .missing => .notFound
  | .raised e => .raised e

theorem importRev_spec (M : Modules) : ∀ ps : List String, ps ≠ [] →
    (∀ m as, Longest M ps.reverse m as → importRev M ps = outcome M (M.load m) as) ∧
    ((∀ m as, ps.reverse = m ++ as → m ≠ [] → M.load m = .missing) → importRev M ps = .notFound)
  | [], h => absurd rfl h
  | p :: ps, _ => by
    have hrev : (p :: ps).reverse = ps.reverse ++ [p] := List.reverse_cons
    constructor
    · rintro m as ⟨h1, h2, h3, h4⟩
      rw [hrev] at h1
      rw [importRev]
      rcases List.eq_nil_or_concat as with rfl | ⟨as', q, rfl⟩
      · rw [List.append_nil] at h1
        subst h1
        cases hl : M.load (ps.reverse ++ [p]) with
        | missing => exact absurd hl h3
        | ok o => rfl
        | raised e => rfl
      · have hq : ps.reverse ++ [p] = (m ++ as') ++ [q] := by rw [h1, List.append_assoc, List.concat_eq_append]
        obtain ⟨e1, e2⟩ := List.append_inj' hq rfl
        injection e2 with e2
        subst e2
        have hmiss : M.load (ps.reverse ++ [p]) = .missing := by
          refine h4 _ [] (by rw [hrev, List.append_nil]) ?_
          rw [e1, List.length_append, List.length_append]
          simp only [List.length_cons, List.length_nil]
          omega
        have hne : ps ≠ [] := by
          intro h0
          subst h0
          have : m = [] := (List.append_eq_nil_iff.1 e1.symm).1
          exact h2 this
        rw [hmiss]
        dsimp only
        rw [if_neg (by simpa using hne)]
        have hlong : Longest M ps.reverse m as' := ⟨e1, h2, h3, fun m' bs hb hl => h4 m' (bs ++ [p]) (by rw [hrev, hb, List.append_assoc]) hl⟩
        have ih := (importRev_spec M ps hne).1 m as' hlong
        have hpar : parent M ps.reverse (importRev M ps) = outcome M (M.load m) as' := by
          unfold parent
          cases hl : M.load ps.reverse with
          | missing => exact ih
          | ok o =>
            by_cases ha : as' = []
            · subst ha
              rw [List.append_nil] at e1
              rw [← e1, hl]
              rfl
            · have : M.load ps.reverse = .missing := by
                refine h4 ps.reverse [p] hrev ?_
                rw [e1, List.length_append]
                have := List.length_pos_iff.2 ha
                omega
              rw [hl] at this
              cases this
          | raised e =>
            by_cases ha : as' = []
            · subst ha
              rw [List.append_nil] at e1
              rw [← e1, hl]
              rfl
            · have : M.load ps.reverse = .missing := by
                refine h4 ps.reverse [p] hrev ?_
                rw [e1, List.length_append]
                have := List.length_pos_iff.2 ha
                omega
              rw [hl] at this
              cases this
        rw [hpar, List.concat_eq_append]
        unfold outcome
        cases M.load m with
        | missing => rfl
        | raised e => rfl
        | ok o =>
          dsimp only
          rw [chain_snoc]
          cases chain M o as' with
          | none => rfl
          | some o' => dsimp only [getAttr]; cases M.attr o' p <;> rfl
    · intro h
      rw [importRev, h (ps.reverse ++ [p]) [] (by rw [hrev, List.append_nil]) (by simp)]
      dsimp only
      cases ps with
      | nil => rfl
      | cons q ps =>
        rw [if_neg (by simp)]
        have ih := (importRev_spec M (q :: ps) nofun).2 fun m as hm h0 => h m (as ++ [p]) (by rw [hrev, hm, List.append_assoc]) h0
        unfold parent
        rw [h (q :: ps).reverse [p] hrev (by simp), ih]
        rfl

theorem splitDots_ne_nil (cs : List Char) : splitDots cs ≠ [] := by
  cases cs with
  | nil => exact nofun
  | cons c cs =>
    rw [splitDots]
    split
    · exact nofun
    · split <;> exact nofun

theorem parts_ne_nil (name : String) : parts name ≠ [] := by
  unfold parts
  rw [Ne, List.map_eq_nil_iff]
  exact splitDots_ne_nil _

theorem longest_or (M : Modules) (name : List String) : (∃ m as, Longest M name m as) ∨ ∀ m as, name = m ++ as → m ≠ [] → M.load m = .missing := by
  by_cases h : ∃ m as, name = m ++ as ∧ m ≠ [] ∧ M.load m ≠ .missing
  · left
    have key : ∀ k, ∀ m as, name = m ++ as → m ≠ [] → M.load m ≠ .missing → as.length ≤ k → ∃ m as, Longest M name m as := by
      intro k
      induction k with
      | zero =>
        intro m as h1 h2 h3 h4
        refine ⟨m, as, h1, h2, h3, fun m' bs hb hl => ?_⟩
        have e := congrArg List.length h1
        have e' := congrArg List.length hb
        rw [List.length_append] at e e'
        omega
      | succ k ih =>
        intro m as h1 h2 h3 h4
        by_cases hm : ∃ m' bs, name = m' ++ bs ∧ m.length < m'.length ∧ M.load m' ≠ .missing
        · obtain ⟨m', bs, g1, g2, g3⟩ := hm
          refine ih m' bs g1 (fun h0 => by subst h0; exact absurd g2 (by simp)) g3 ?_
          have e := congrArg List.length h1
          have e' := congrArg List.length g1
          rw [List.length_append] at e e'
          omega
        · refine ⟨m, as, h1, h2, h3, fun m' bs hb hl => ?_⟩
          cases hx : M.load m' with
          | missing => rfl
          | ok o => exact absurd ⟨m', bs, hb, hl, by rw [hx]; exact nofun⟩ hm
          | raised e => exact absurd ⟨m', bs, hb, hl, by rw [hx]; exact nofun⟩ hm
    obtain ⟨m, as, h1, h2, h3⟩ := h
    exact key as.length m as h1 h2 h3 (Nat.le_refl _)
  · right
    intro m as h1 h2
    cases hx : M.load m with
    | missing => rfl
    | ok o => exact absurd ⟨m, as, h1, h2, by rw [hx]; exact nofun⟩ h
    | raised e => exact absurd ⟨m, as, h1, h2, by rw [hx]; exact nofun⟩ h

/-- **C99, resolution.**  A dotted name denotes the object that is reached from the longest prefix that can be imported through the remaining parts as attributes.  If no prefix can be imported,
or an attribute is missing, `ImportStringError` is raised; an exception other than `ImportError` that the import of that prefix raises passes. -/
theorem C99_resolution (M : Modules) (name : String) :
    (∀ o, importString M name = .obj o ↔ ∃ m as mo, Longest M (parts name) m as ∧ M.load m = .ok mo ∧ chain M mo as = some o) ∧
    (importString M name = .notFound ↔
      (∀ m as, parts name = m ++ as → m ≠ [] → M.load m = .missing) ∨ ∃ m as mo, Longest M (parts name) m as ∧ M.load m = .ok mo ∧ chain M mo as = none) ∧
    (∀ e, importString M name = .raised e ↔ ∃ m as, Longest M (parts name) m as ∧ M.load m = .raised e) := by
  have hne : (parts name).reverse ≠ [] := by simpa using parts_ne_nil name
  obtain ⟨s1, s2⟩ := importRev_spec M _ hne
  rw [List.reverse_reverse] at s1 s2
  have huniq : ∀ {m as m' as'}, Longest M (parts name) m as → Longest M (parts name) m' as' → m = m' ∧ as = as' := by
    intro m as m' as' h h'
    have hl : m.length = m'.length := by
      rcases Nat.lt_trichotomy m.length m'.length with g | g | g
      · exact absurd (h.longest _ _ h'.split g) h'.found
      · exact g
      · exact absurd (h'.longest _ _ h.split g) h.found
    exact List.append_inj (h.split.symm.trans h'.split) hl
  rcases longest_or M (parts name) with ⟨m, as, hL⟩ | hall
  · have e : importString M name = outcome M (M.load m) as := s1 m as hL
    have hnot : ¬ ∀ m as, parts name = m ++ as → m ≠ [] → M.load m = .missing := fun h => hL.found (h m as hL.split hL.nonempty)
    refine ⟨fun o => ?_, ?_, fun x => ?_⟩
    · rw [e]
      constructor
      · intro h
        unfold outcome at h
        cases hm : M.load m with
        | missing => rw [hm] at h; cases h
        | raised x => rw [hm] at h; cases h
        | ok mo =>
          rw [hm] at h
          dsimp only at h
          cases hc : chain M mo as with
          | none => rw [hc] at h; cases h
          | some o' => rw [hc] at h; cases h; exact ⟨m, as, mo, hL, hm, hc⟩
      · rintro ⟨m', as', mo, h1, h2, h3⟩
        obtain ⟨rfl, rfl⟩ := huniq hL h1
        unfold outcome
        rw [h2]
        dsimp only
        rw [h3]
    · rw [e]
      constructor
      · intro h
        right
        unfold outcome at h
        cases hm : M.load m with
        | missing => exact absurd hm hL.found
        | raised x => rw [hm] at h; cases h
        | ok mo =>
          rw [hm] at h
          dsimp only at h
          cases hc : chain M mo as with
          | none => exact ⟨m, as, mo, hL, hm, hc⟩
          | some o' => rw [hc] at h; cases h
      · rintro (h | ⟨m', as', mo, h1, h2, h3⟩)
        · exact absurd h hnot
        · obtain ⟨rfl, rfl⟩ := huniq hL h1
          unfold outcome
          rw [h2]
          dsimp only
          rw [h3]
    · rw [e]
      constructor
      · intro h
        unfold outcome at h
        cases hm : M.load m with
        | missing => rw [hm] at h; cases h
        | raised y => rw [hm] at h; cases h; exact ⟨m, as, hL, hm⟩
        | ok mo =>
          rw [hm] at h
          dsimp only at h
          cases hc : chain M mo as with
          | none => rw [hc] at h; cases h
          | some o' => rw [hc] at h; cases h
      · rintro ⟨m', as', h1, h2⟩
        obtain ⟨rfl, rfl⟩ := huniq hL h1
        unfold outcome
        rw [h2]
  · have e : importString M name = .notFound := s2 hall
    refine ⟨fun o => ?_, ?_, fun x => ?_⟩
    · rw [e]
      constructor
      · intro h; cases h
      · rintro ⟨m, as, mo, h1, -, -⟩; exact absurd (hall m as h1.split h1.nonempty) h1.found
    · rw [e]
      exact ⟨fun _ => .inl hall, fun _ => rfl⟩
    · rw [e]
      constructor
      · intro h; cases h
      · rintro ⟨m, as, h1, -⟩; exact absurd (hall m as h1.split h1.nonempty) h1.found

/-! ## Names -/

/-- A name: parts with dots or colons between them. -/
def written (p : List Char) : List (Char × List Char) → List Char
  | [] => p
  | (s, q) :: ps => p ++ s :: written q ps

/-- No dots and colons. -/
def Plain (p : List Char) : Prop := ∀ c ∈ p, c ≠ '.' ∧ c ≠ ':'

theorem splitDots_plain {p : List Char} (hp : Plain p) (r : List Char) :
    ∃ q qs, splitDots (colonsToDots r) = q :: qs ∧ splitDots (colonsToDots (p ++ r)) = (p ++ q) :: qs := by
  induction p with
  | nil =>
    cases h : splitDots (colonsToDots r) with
    | nil => exact absurd h (splitDots_ne_nil _)
    | cons q qs => exact ⟨q, qs, rfl, h⟩
  | cons c p ih =>
    obtain ⟨q, qs, h1, h2⟩ := ih fun x hx => hp x (List.mem_cons_of_mem _ hx)
    obtain ⟨c1, c2⟩ := hp c (List.mem_cons_self ..)
    refine ⟨q, qs, h1, ?_⟩
    have : colonsToDots (c :: p ++ r) = c :: colonsToDots (p ++ r) := by
      show (if c = ':' then '.' else c) :: _ = _
      rw [if_neg c2]
      rfl
    rw [this, splitDots, if_neg c1, h2]
    rfl

theorem splitDots_sep {s : Char} (hs : s = '.' ∨ s = ':') (r : List Char) : splitDots (colonsToDots (s :: r)) = [] :: splitDots (colonsToDots r) := by
  have : colonsToDots (s :: r) = '.' :: colonsToDots r := by
    rcases hs with rfl | rfl <;> rfl
  rw [this, splitDots, if_pos rfl]

theorem splitDots_written : ∀ (ps : List (Char × List Char)) (p : List Char), Plain p → (∀ q ∈ ps, (q.1 = '.' ∨ q.1 = ':') ∧ Plain q.2) →
    splitDots (colonsToDots (written p ps)) = p :: ps.map Prod.snd
  | [], p, hp, _ => by
    obtain ⟨q, qs, h1, h2⟩ := splitDots_plain hp []
    have : splitDots (colonsToDots []) = [[]] := rfl
    rw [this] at h1
    cases h1
    rw [List.append_nil] at h2
    exact h2
  | (s, q) :: ps, p, hp, h => by
    obtain ⟨h1, h2⟩ := h (s, q) (List.mem_cons_self ..)
    have ih := splitDots_written ps q h2 fun x hx => h x (List.mem_cons_of_mem _ hx)
    obtain ⟨a, as, g1, g2⟩ := splitDots_plain hp (s :: written q ps)
    rw [splitDots_sep h1, ih] at g1
    cases g1
    rw [written, g2, List.append_nil]
    rfl

/-- **C99, names.**  Dots and colons may be used alike between the parts of a name. -/
theorem C99_names (p : List Char) (ps : List (Char × List Char)) (hp : Plain p) (h : ∀ q ∈ ps, (q.1 = '.' ∨ q.1 = ':') ∧ Plain q.2) :
    parts (String.ofList (written p ps)) = (p :: ps.map Prod.snd).map String.ofList := by
  unfold parts
  rw [String.toList_ofList, splitDots_written ps p hp h]

/-! ## Histories -/

theorem step_get (truthy : Obj → Bool) {rs : List Ref} {i : Nat} {r : Ref} (h : rs[i]? = some r) (e : Event) :
    (step truthy rs e)[i]? = some (match e with
      | .setup j on o => if j = i then r.setup truthy on o else r
      | .use j M => if j = i then (r.use truthy M).2 else r
      | _ => r) := by
  have hi : i < rs.length := (List.getElem?_eq_some_iff.1 h).1
  cases e with
  | byName n => rw [step, List.getElem?_append_left hi]; exact h
  | byClass n c => rw [step, List.getElem?_append_left hi]; exact h
  | copy j =>
    rw [step]
    cases hj : rs[j]? with
    | none => exact h
    | some r' => dsimp only; rw [List.getElem?_append_left hi]; exact h
  | setup j on o =>
    rw [step, List.getElem?_modify, h]
    by_cases hj : j = i
    · simp [hj]
    · simp [hj]
  | use j M =>
    rw [step, List.getElem?_modify, h]
    by_cases hj : j = i
    · simp [hj]
    · simp [hj]

theorem run_resolved (truthy : Obj → Bool) {r : Ref} {o : Obj} (hr : r.resolved truthy = some o) {i : Nat} : ∀ (es : List Event) (rs : List Ref), rs[i]? = some r → (run truthy rs es)[i]? = some r
  | [], _, h => h
  | e :: es, rs, h => by
    refine run_resolved truthy hr es (step truthy rs e) ?_
    rw [step_get truthy h e]
    cases e with
    | setup j on w =>
      dsimp only
      unfold Ref.setup
      rw [hr]
      simp
    | use j M =>
      dsimp only
      unfold Ref.use
      rw [hr]
      simp
    | _ => rfl

theorem use_resolved {truthy : Obj → Bool} {r : Ref} {o : Obj} (hr : r.resolved truthy = some o) (M : Modules) : r.use truthy M = (.obj o, r) := by
  unfold Ref.use
  rw [hr]

/-- **C99, stability.**  Once a reference has given a class, it gives that class for ever: whatever is imported, renamed, subclassed or used later. -/
theorem C99_stable (truthy : Obj → Bool) (rs : List Ref) (i : Nat) (M : Modules) (o : Obj) (h : ask truthy rs i M = some (.obj o)) (ho : truthy o = true) (es : List Event) (M' : Modules) :
    ask truthy (run truthy rs (.use i M :: es)) i M' = some (.obj o) := by
  unfold ask at h
  cases hr : rs[i]? with
  | none => rw [hr] at h; cases h
  | some r =>
    rw [hr] at h
    have h := Option.some.inj h
    have h2 : ((r.use truthy M).2).resolved truthy = some o := by
      unfold Ref.use at h ⊢
      cases hres : r.resolved truthy with
      | some o' => rw [hres] at h; cases h; exact hres
      | none =>
        rw [hres] at h
        dsimp only at h ⊢
        cases hi : importString M r.name with
        | notFound => rw [hi] at h; cases h
        | raised e => rw [hi] at h; cases h
        | obj o' =>
          rw [hi] at h
          cases h
          show (if truthy o = true then some o else none) = some o
          rw [if_pos ho]
    have h3 := step_get truthy hr (.use i M)
    dsimp only at h3
    rw [if_pos rfl] at h3
    have h4 := run_resolved truthy h2 es _ h3
    show (match (run truthy (step truthy rs (.use i M)) es)[i]? with | some r => some (r.use truthy M').1 | none => none) = _
    rw [h4]
    dsimp only
    rw [use_resolved h2]

/-- **C99, laziness.**  Until it is used with success, or set up in a model of its own name, a reference by name is not bound: the class it gives is the one that its name denotes at that moment,
whatever classes and modules were defined, however often it failed before, and whatever happened to other references. -/
theorem C99_lazy (truthy : Obj → Bool) (i : Nat) (r : Ref) (hr : r.resolved truthy = none) (es : List Event) : ∀ (rs : List Ref), rs[i]? = some r →
    (∀ M', .use i M' ∈ es → ∀ o, importString M' r.name ≠ .obj o) → (∀ on o, .setup i on o ∈ es → on ≠ r.name) → ∀ M,
    ask truthy (run truthy rs es) i M = some (importString M r.name) := by
  induction es with
  | nil =>
    intro rs h _ _ M
    show (match rs[i]? with | some r => some (r.use truthy M).1 | none => none) = _
    rw [h]
    dsimp only
    unfold Ref.use
    rw [hr]
    dsimp only
    cases importString M r.name <;> rfl
  | cons e es ih =>
    intro rs h h1 h2 M
    refine ih (step truthy rs e) ?_ (fun M' hm => h1 M' (List.mem_cons_of_mem _ hm)) (fun on o hm => h2 on o (List.mem_cons_of_mem _ hm)) M
    rw [step_get truthy h e]
    cases e with
    | setup j on o =>
      dsimp only
      by_cases hj : j = i
      · subst hj
        have : (r.name == on) = false := by simpa using (h2 on o (List.mem_cons_self ..)).symm
        rw [if_pos rfl]
        unfold Ref.setup
        rw [this]
        simp
      · rw [if_neg hj]
    | use j M' =>
      dsimp only
      by_cases hj : j = i
      · subst hj
        rw [if_pos rfl]
        unfold Ref.use
        rw [hr]
        dsimp only
        have := h1 M' (List.mem_cons_self ..)
        cases hi : importString M' r.name with
        | obj o => exact absurd hi (this o)
        | notFound => rfl
        | raised x => rfl
      · rw [if_neg hj]
    | _ => rfl

/-- **C99, own name.**  A reference that is unresolved when a model of that name is created with it denotes that model, whatever can be imported under the name. -/
theorem C99_own_name (truthy : Obj → Bool) (rs : List Ref) (i : Nat) (r : Ref) (h : rs[i]? = some r) (hr : r.resolved truthy = none) (owner : Obj) (ho : truthy owner = true) (es : List Event)
    (M : Modules) : ask truthy (run truthy rs (.setup i r.name owner :: es)) i M = some (.obj owner) := by
  have h3 := step_get truthy h (.setup i r.name owner)
  dsimp only at h3
  rw [if_pos rfl] at h3
  have h2 : (r.setup truthy r.name owner).resolved truthy = some owner := by
    unfold Ref.setup
    rw [hr, if_pos (by simp)]
    show (if truthy owner = true then some owner else none) = _
    rw [if_pos ho]
  have h4 := run_resolved truthy h2 es _ h3
  show (match (run truthy (step truthy rs (.setup i r.name owner)) es)[i]? with | some r => some (r.use truthy M).1 | none => none) = _
  rw [h4]
  dsimp only
  rw [use_resolved h2]

/-- **C99, subclasses.**  The copy that a subclass gets of an unresolved reference is resolved on its own: what happens to the original later does not bind it. -/
theorem C99_copy (truthy : Obj → Bool) (rs : List Ref) (i : Nat) (r : Ref) (h : rs[i]? = some r) (hr : r.resolved truthy = none) (es : List Event)
    (h1 : ∀ M', .use rs.length M' ∈ es → ∀ o, importString M' r.name ≠ .obj o) (h2 : ∀ on o, .setup rs.length on o ∈ es → on ≠ r.name) (M : Modules) :
    ask truthy (run truthy rs (.copy i :: es)) rs.length M = some (importString M r.name) := by
  refine C99_lazy truthy rs.length r hr es (step truthy rs (.copy i)) ?_ h1 h2 M
  rw [step, h]
  dsimp only
  rw [List.getElem?_append_right (Nat.le_refl _), Nat.sub_self]
  rfl

/-- The copy of a reference that is resolved already denotes the same class. -/
theorem C99_copy_resolved (truthy : Obj → Bool) (rs : List Ref) (i : Nat) (r : Ref) (h : rs[i]? = some r) (o : Obj) (hr : r.resolved truthy = some o) (es : List Event) (M : Modules) :
    ask truthy (run truthy rs (.copy i :: es)) rs.length M = some (.obj o) := by
  have h3 : (step truthy rs (.copy i))[rs.length]? = some r := by
    rw [step, h]
    dsimp only
    rw [List.getElem?_append_right (Nat.le_refl _), Nat.sub_self]
    rfl
  have h4 := run_resolved truthy hr es _ h3
  show (match (run truthy (step truthy rs (.copy i)) es)[rs.length]? with | some r => some (r.use truthy M).1 | none => none) = _
  rw [h4]
  dsimp only
  rw [use_resolved hr]

/-- **C99, references by class.**  A reference to a class itself denotes that class for ever, whatever can be imported under its name. -/
theorem C99_by_class (truthy : Obj → Bool) (rs : List Ref) (n : String) (c : Obj) (hc : truthy c = true) (es : List Event) (M : Modules) :
    ask truthy (run truthy rs (.byClass n c :: es)) rs.length M = some (.obj c) := by
  have h3 : (step truthy rs (.byClass n c))[rs.length]? = some ⟨n, some c⟩ := by
    rw [step, List.getElem?_append_right (Nat.le_refl _), Nat.sub_self]
    rfl
  have hr : (Ref.mk n (some c)).resolved truthy = some c := by
    show (if truthy c = true then some c else none) = _
    rw [if_pos hc]
  have h4 := run_resolved truthy hr es _ h3
  show (match (run truthy (step truthy rs (.byClass n c)) es)[rs.length]? with | some r => some (r.use truthy M).1 | none => none) = _
  rw [h4]
  dsimp only
  rw [use_resolved hr]

/-- **C99, the name is kept.**  Nothing that happens changes the name (`model_name`) of a reference. -/
theorem C99_name_kept (truthy : Obj → Bool) (i : Nat) (es : List Event) : ∀ (rs : List Ref) (r : Ref), rs[i]? = some r →
    ∃ r', (run truthy rs es)[i]? = some r' ∧ r'.name = r.name := by
  induction es with
  | nil => intro rs r h; exact ⟨r, h, rfl⟩
  | cons e es ih =>
    intro rs r h
    obtain ⟨r', h1, h2⟩ := ih (step truthy rs e) _ (step_get truthy h e)
    refine ⟨r', h1, h2.trans ?_⟩
    cases e with
    | setup j on o =>
      dsimp only
      split
      · unfold Ref.setup; split <;> rfl
      · rfl
    | use j M =>
      dsimp only
      split
      · unfold Ref.use
        cases r.resolved truthy with
        | some o => rfl
        | none => dsimp only; cases importString M r.name <;> rfl
      · rfl
    | _ => rfl

/-! ## What fails -/

/-- A package `app` (object 1) with modules `app.models` (2) and `app.user` (3), and classes `app.models.User` (4), `User.Inner` (5), `app.user` as a class under the name of the module. -/
def sampleM : Modules where
  load
    | ["app"] => .ok 1
    | ["app", "models"] => .ok 2
    | ["app", "user"] => .ok 3
    | ["broken"] => .raised "SyntaxError"
    | _ => .missing
  attr
    | 1, "user" => some 6
    | 2, "User" => some 4
    | 4, "Inner" => some 5
    | _, _ => none

/-- **C99, what fails.**  A module hides a class of the same dotted name: the reference denotes the module, which is no model. -/
theorem C99_counterexample_module : importString sampleM "app.user" = .obj 3 ∧ sampleM.attr 1 "user" = some 6 := by decide +kernel

/-- **C99, what fails.**  The bare name of another model of the same module is not found; only the model's own name may be bare. -/
theorem C99_counterexample_bare : ask (fun _ => true) (run (fun _ => true) [] [.byName "User", .setup 0 "Account" 7]) 0 sampleM = some .notFound ∧
    ask (fun _ => true) (run (fun _ => true) [] [.byName "User", .setup 0 "User" 4]) 0 sampleM = some (.obj 4) := by decide +kernel

/-- **C99, what fails.**  A reference to a subclass by its bare name is bound in the subclass, but not in the base. -/
theorem C99_counterexample_base : (let rs := run (fun _ => true) [] [.byName "Sub", .setup 0 "Base" 7, .copy 0, .setup 1 "Sub" 8]
    (ask (fun _ => true) rs 0 sampleM, ask (fun _ => true) rs 1 sampleM)) = (some .notFound, some (.obj 8)) := by decide +kernel

/-! ## The hypotheses are met -/

/-- `C99_resolution`: a class in a class. -/
example : importString sampleM "app.models:User.Inner" = .obj 5 ∧ Longest sampleM (parts "app.models:User.Inner") ["app", "models"] ["User", "Inner"] ∧
    chain sampleM 2 ["User", "Inner"] = some 5 := by
  have hp : parts "app.models:User.Inner" = ["app", "models", "User", "Inner"] := by decide +kernel
  refine ⟨by decide +kernel, ⟨hp, nofun, nofun, ?_⟩, by decide⟩
  intro m' as h hl
  rw [hp] at h
  match m', as, h, hl with
  | [_, _, _], _, h, _ => cases h; rfl
  | [_, _, _, _], _, h, _ => cases h; rfl
  | _ :: _ :: _ :: _ :: _ :: _, _, h, _ => simp at h

/-- Other outcomes. -/
example : importString sampleM "app.models.Missing" = .notFound ∧ importString sampleM "nowhere" = .notFound ∧ importString sampleM "broken.User" = .raised "SyntaxError" := by decide +kernel

/-- A reference that fails, and is used again later, when the module exists; then stays. -/
example : (let rs := run (fun _ => true) [] [.byName "app.models.User", .setup 0 "Account" 7, .use 0 ⟨fun _ => .missing, fun _ _ => none⟩, .use 0 sampleM]
    ask (fun _ => true) rs 0 ⟨fun _ => .missing, fun _ _ => none⟩) = some (.obj 4) := by decide +kernel

end Verif.ImportString
