import Verif.Lib.Subclass
import Verif.Props.Poly
import Mathlib.Data.List.Nodup
import Mathlib.Data.List.Perm.Subperm
import Mathlib.Data.List.Count

/-!
# C82: subclasses as candidates of a polymorphic field
-/
namespace Verif.Lib.Subclass

/-- `p` is an inheritance path below `c`: each class on it names the one before it as a base. -/
inductive Path (h : Hierarchy) : Nat → List Nat → Prop
  | last (c s : Nat) (bs : List Nat) : h[s]? = some bs → c ∈ bs → Path h c [s]
  | more (c s : Nat) (bs : List Nat) (p : List Nat) : h[s]? = some bs → c ∈ bs → Path h s p → Path h c (s :: p)

/-- `d` derives from `c`, directly or not. -/
inductive Derives (h : Hierarchy) : Nat → Nat → Prop
  | direct (d c : Nat) (bs : List Nat) : h[d]? = some bs → c ∈ bs → Derives h d c
  | trans (d e c : Nat) : Derives h d e → Derives h e c → Derives h d c

theorem mem_direct (h : Hierarchy) (c s : Nat) : s ∈ direct h c ↔ ∃ bs, h[s]? = some bs ∧ c ∈ bs := by
  unfold direct
  simp only [List.mem_filter, List.mem_range]
  constructor
  · rintro ⟨hs, hb⟩
    have : h[s]? = some h[s] := List.getElem?_eq_getElem hs
    rw [this] at hb
    exact ⟨_, this, by simpa using hb⟩
  · rintro ⟨bs, hs, hc⟩
    refine ⟨(List.getElem?_eq_some_iff.1 hs).1, ?_⟩
    rw [hs]; simpa using hc

theorem direct_nodup (h : Hierarchy) (c : Nat) : (direct h c).Nodup := List.Nodup.filter _ List.nodup_range

theorem direct_lt (h : Hierarchy) (hok : Ok h) (c s : Nat) (hs : s ∈ direct h c) : c < s ∧ s < h.length := by
  obtain ⟨bs, h1, h2⟩ := (mem_direct h c s).1 hs
  exact ⟨(hok s bs h1).1 c h2, (List.getElem?_eq_some_iff.1 h1).1⟩

/-- All paths, as the recursion visits them. -/
def allPaths (h : Hierarchy) : Nat → Nat → List (List Nat)
  | 0, _ => []
  | n + 1, c => (direct h c).flatMap fun s => [s] :: (allPaths h n s).map (s :: ·)

theorem allPaths_ne (h : Hierarchy) : ∀ (n c : Nat) (p : List Nat), p ∈ allPaths h n c → p ≠ [] := by
  intro n c p hp
  cases n with
  | zero => cases hp
  | succ n =>
    simp only [allPaths, List.mem_flatMap, List.mem_cons, List.mem_map] at hp
    obtain ⟨s, -, rfl | ⟨q, -, rfl⟩⟩ := hp <;> simp

theorem allSubs_eq (h : Hierarchy) : ∀ (n c : Nat), (allSubs h n c).map some = (allPaths h n c).map List.getLast? := by
  intro n
  induction n with
  | zero => intro c; rfl
  | succ n ih =>
    intro c
    simp only [allSubs, allPaths, List.map_flatMap, List.map_cons, List.map_map, List.getLast?_singleton]
    congr 1
    funext s
    congr 1
    rw [ih]
    apply List.map_congr_left
    intro p hp
    simp only [Function.comp]
    cases p with
    | nil => exact absurd rfl (allPaths_ne h n s [] hp)
    | cons x p => simp [List.getLast?_cons]

theorem allPaths_nodup (h : Hierarchy) : ∀ (n c : Nat), (allPaths h n c).Nodup := by
  intro n
  induction n with
  | zero => intro c; exact List.nodup_nil
  | succ n ih =>
    intro c
    simp only [allPaths]
    rw [List.nodup_flatMap]
    constructor
    · intro s _
      rw [List.nodup_cons]
      refine ⟨?_, (ih s).map (fun a b e => by simpa using e)⟩
      intro hm
      obtain ⟨p, hp, e⟩ := List.mem_map.1 hm
      have : p = [] := by simpa using e
      exact allPaths_ne h n s p hp this
    · refine (direct_nodup h c).imp ?_
      intro a b hab
      simp only [Function.onFun, List.disjoint_left]
      intro p hp hq
      have e1 : p.head? = some a := by
        rcases List.mem_cons.1 hp with rfl | hp
        · rfl
        · obtain ⟨q, -, rfl⟩ := List.mem_map.1 hp; rfl
      have e2 : p.head? = some b := by
        rcases List.mem_cons.1 hq with rfl | hq
        · rfl
        · obtain ⟨q, -, rfl⟩ := List.mem_map.1 hq; rfl
      rw [e1] at e2
      exact hab (by simpa using e2)

theorem mem_allPaths (h : Hierarchy) (hok : Ok h) : ∀ (n c : Nat) (p : List Nat), h.length ≤ c + 1 + n → (p ∈ allPaths h n c ↔ Path h c p) := by
  intro n
  induction n with
  | zero =>
    intro c p hl
    simp only [allPaths, List.not_mem_nil, false_iff]
    intro hp
    have : ∃ (s : Nat) (bs : List Nat), h[s]? = some bs ∧ c ∈ bs := by
      cases hp with
      | last _ s bs h1 h2 => exact ⟨s, bs, h1, h2⟩
      | more _ s bs _ h1 h2 _ => exact ⟨s, bs, h1, h2⟩
    obtain ⟨s, bs, h1, h2⟩ := this
    have := direct_lt h hok c s ((mem_direct h c s).2 ⟨bs, h1, h2⟩)
    omega
  | succ n ih =>
    intro c p hl
    simp only [allPaths, List.mem_flatMap, List.mem_cons, List.mem_map]
    constructor
    · rintro ⟨s, hs, hp⟩
      obtain ⟨bs, h1, h2⟩ := (mem_direct h c s).1 hs
      have := direct_lt h hok c s hs
      rcases hp with rfl | ⟨q, hq, rfl⟩
      · exact .last c s bs h1 h2
      · exact .more c s bs q h1 h2 ((ih s q (by omega)).1 hq)
    · intro hp
      cases hp with
      | last _ s bs h1 h2 => exact ⟨s, (mem_direct h c s).2 ⟨bs, h1, h2⟩, Or.inl rfl⟩
      | more _ s bs q h1 h2 hq =>
        have hs := (mem_direct h c s).2 ⟨bs, h1, h2⟩
        have := direct_lt h hok c s hs
        exact ⟨s, hs, Or.inr ⟨q, (ih s q (by omega)).2 hq, rfl⟩⟩

/-- The recursion is never cut short: more fuel changes nothing. -/
theorem all_fuel (h : Hierarchy) (hok : Ok h) : ∀ (n m c : Nat), h.length ≤ c + 1 + n → n ≤ m → allSubs h n c = allSubs h m c := by
  intro n
  induction n with
  | zero =>
    intro m c hl _
    have hd : direct h c = [] := by
      rw [List.eq_nil_iff_forall_not_mem]
      intro s hs
      have := direct_lt h hok c s hs
      omega
    cases m with
    | zero => rfl
    | succ m => simp [allSubs, hd]
  | succ n ih =>
    intro m c hl hm
    obtain ⟨k, rfl⟩ : ∃ k, m = k + 1 := ⟨m - 1, by omega⟩
    simp only [allSubs]
    have : ∀ (l : List Nat), (∀ s ∈ l, c < s) → (l.flatMap fun s => s :: allSubs h n s) = l.flatMap fun s => s :: allSubs h k s := by
      intro l
      induction l with
      | nil => intro _; rfl
      | cons s l ihl =>
        intro hl'
        have := hl' s (by simp)
        rw [List.flatMap_cons, List.flatMap_cons, ihl fun s' hs' => hl' s' (by simp [hs']), ih k s (by omega) (by omega)]
    exact this _ fun s hs => (direct_lt h hok c s hs).1

/-- **C82.** The list of all subclasses has exactly one entry per inheritance path: there is a duplicate-free list of all paths below the class whose end
points, in order, are the listed classes. -/
theorem C82_one_entry_per_path (h : Hierarchy) (hok : Ok h) (c : Nat) :
    ∃ ps : List (List Nat), ps.Nodup ∧ (∀ p, p ∈ ps ↔ Path h c p) ∧ (getAllSubclasses h c).map some = ps.map List.getLast? :=
  ⟨allPaths h h.length c, allPaths_nodup h _ c, fun p => mem_allPaths h hok _ c p (by omega), allSubs_eq h _ c⟩

theorem derives_of_path (h : Hierarchy) {c : Nat} {p : List Nat} (hp : Path h c p) : ∀ d, p.getLast? = some d → Derives h d c := by
  induction hp with
  | last c s bs h1 h2 => intro d hd; simp at hd; subst hd; exact .direct _ _ bs h1 h2
  | more c s bs p h1 h2 hp ih =>
    intro d hd
    have hd' : p.getLast? = some d := by
      cases p with
      | nil => cases hp
      | cons x p => simpa [List.getLast?_cons] using hd
    exact .trans d s c (ih d hd') (.direct s c bs h1 h2)

theorem path_append (h : Hierarchy) {c e : Nat} {p q : List Nat} (hp : Path h c p) (hl : p.getLast? = some e) (hq : Path h e q) : Path h c (p ++ q) := by
  induction hp with
  | last c s bs h1 h2 => simp at hl; subst hl; exact .more c s bs q h1 h2 hq
  | more c s bs p h1 h2 hp ih =>
    have hl' : p.getLast? = some e := by
      cases p with
      | nil => cases hp
      | cons x p => simpa [List.getLast?_cons] using hl
    exact .more c s bs (p ++ q) h1 h2 (ih hl')

theorem path_of_derives (h : Hierarchy) {d c : Nat} (hd : Derives h d c) : ∃ p, Path h c p ∧ p.getLast? = some d := by
  induction hd with
  | direct d c bs h1 h2 => exact ⟨[d], .last c d bs h1 h2, rfl⟩
  | trans d e c _ _ ih1 ih2 =>
    obtain ⟨q, hq, hq'⟩ := ih1
    obtain ⟨p, hp, hp'⟩ := ih2
    refine ⟨p ++ q, path_append h hp hp' hq, ?_⟩
    rw [List.getLast?_append, hq']; rfl

/-- **C82.** The listed classes are exactly those that derive from the class, at any depth; the class itself is not listed. -/
theorem C82_lists_the_descendants (h : Hierarchy) (hok : Ok h) (c d : Nat) :
    (d ∈ getAllSubclasses h c ↔ Derives h d c) ∧ c ∉ getAllSubclasses h c := by
  obtain ⟨ps, -, hp, he⟩ := C82_one_entry_per_path h hok c
  have key : ∀ d, d ∈ getAllSubclasses h c ↔ Derives h d c := by
    intro d
    have e1 : d ∈ getAllSubclasses h c ↔ some d ∈ (getAllSubclasses h c).map some := by simp
    rw [e1, he, List.mem_map]
    constructor
    · rintro ⟨p, hm, hl⟩; exact derives_of_path h ((hp p).1 hm) d hl
    · intro hd
      obtain ⟨p, h1, h2⟩ := path_of_derives h hd
      exact ⟨p, (hp p).2 h1, h2⟩
  refine ⟨key d, ?_⟩
  rw [key]
  have lt : ∀ {a b}, Derives h a b → b < a := by
    intro a b hd
    induction hd with
    | direct d c bs h1 h2 => exact (hok d bs h1).1 c h2
    | trans _ _ _ _ _ ih1 ih2 => omega
  intro hd
  have := lt hd
  omega

theorem path_lt (h : Hierarchy) (hok : Ok h) {c : Nat} {p : List Nat} (hp : Path h c p) : ∀ x ∈ p, c < x := by
  induction hp with
  | last c s bs h1 h2 => intro x hx; simp at hx; subst hx; exact (hok _ bs h1).1 c h2
  | more c s bs p h1 h2 _ ih =>
    intro x hx
    have := (hok s bs h1).1 c h2
    rcases List.mem_cons.1 hx with rfl | hx
    · exact this
    · have := ih x hx; omega

/-- **C82.** No class is listed twice exactly when no class can be reached on two paths. -/
theorem C82_listed_once_iff (h : Hierarchy) (hok : Ok h) (c : Nat) :
    (getAllSubclasses h c).Nodup ↔ ∀ p q, Path h c p → Path h c q → p.getLast? = q.getLast? → p = q := by
  obtain ⟨ps, hn, hp, he⟩ := C82_one_entry_per_path h hok c
  have e1 : (getAllSubclasses h c).Nodup ↔ ((getAllSubclasses h c).map some).Nodup :=
    (List.nodup_map_iff (fun _ _ e => Option.some.inj e)).symm
  rw [e1, he, List.nodup_map_iff_inj_on hn]
  constructor
  · intro hi p q h1 h2 hl; exact hi p ((hp p).2 h1) q ((hp q).2 h2) hl
  · intro hi p h1 q h2 hl; exact hi p q ((hp p).1 h1) ((hp q).1 h2) hl

theorem path_snoc (h : Hierarchy) {c : Nat} {p : List Nat} (hp : Path h c p) : ∀ d, p.getLast? = some d →
    ∃ bs b, h[d]? = some bs ∧ b ∈ bs ∧ ((p = [d] ∧ b = c) ∨ ∃ q, p = q ++ [d] ∧ Path h c q ∧ q.getLast? = some b) := by
  induction hp with
  | last c s bs h1 h2 => intro d hd; simp at hd; subst hd; exact ⟨bs, c, h1, h2, Or.inl ⟨rfl, rfl⟩⟩
  | more c s bs p h1 h2 hp ih =>
    intro d hd
    have hd' : p.getLast? = some d := by
      cases p with
      | nil => cases hp
      | cons x p => simpa [List.getLast?_cons] using hd
    obtain ⟨bs', b, h3, h4, h5⟩ := ih d hd'
    refine ⟨bs', b, h3, h4, Or.inr ?_⟩
    rcases h5 with ⟨rfl, rfl⟩ | ⟨q, rfl, hq, hl⟩
    · exact ⟨[b], rfl, .last c b bs h1 h2, rfl⟩
    · refine ⟨s :: q, rfl, .more c s bs q h1 h2 hq, ?_⟩
      cases q with
      | nil => cases hq
      | cons x q => simpa [List.getLast?_cons] using hl

/-- **C82.** With single inheritance every subclass is listed once. -/
theorem C82_single_inheritance (h : Hierarchy) (hok : Ok h) (hs : ∀ (i : Nat) (bs : List Nat), h[i]? = some bs → bs.length ≤ 1) (c : Nat) :
    (getAllSubclasses h c).Nodup := by
  rw [C82_listed_once_iff h hok]
  have key : ∀ (n : Nat) (p q : List Nat), p.length = n → Path h c p → Path h c q → p.getLast? = q.getLast? → p = q := by
    intro n
    induction n with
    | zero => intro p q hl hp; cases hp <;> cases hl
    | succ n ih =>
      intro p q hl hp hq he
      obtain ⟨d, hd⟩ : ∃ d, p.getLast? = some d := by
        cases p with
        | nil => cases hl
        | cons x p => exact ⟨_, List.getLast?_cons⟩
      obtain ⟨bs, b, h1, h2, h3⟩ := path_snoc h hp d hd
      obtain ⟨bs', b', h1', h2', h3'⟩ := path_snoc h hq d (he ▸ hd)
      rw [h1] at h1'; cases h1'
      have hbb : b = b' := by
        have := hs d bs h1
        match bs, this, h2, h2' with
        | [x], _, h2, h2' => simp at h2 h2'; rw [h2, h2']
      subst hbb
      rcases h3 with ⟨rfl, rfl⟩ | ⟨p', rfl, hp', hl'⟩
      · rcases h3' with ⟨rfl, -⟩ | ⟨q', rfl, hq', hl''⟩
        · rfl
        · have := path_lt h hok hq' b (List.mem_of_getLast? hl'')
          omega
      · rcases h3' with ⟨rfl, rfl⟩ | ⟨q', rfl, hq', hl''⟩
        · have := path_lt h hok hp' b (List.mem_of_getLast? hl')
          omega
        · rw [ih p' q' (by simpa using hl) hp' hq' (hl'.trans hl''.symm)]
  intro p q hp hq he
  exact key _ p q rfl hp hq he

/-! ## Polymorphic fields over a hierarchy -/

/-- The environment lists the subclasses that the library finds in the hierarchy. -/
def Describes (h : Hierarchy) (name : Nat → String) (env : Env) : Prop := ∀ c, c < h.length → env.subs (name c) = (getAllSubclasses h c).map name

/-- **C82.** A polymorphic field given one model, over a hierarchy with single inheritance: the model chosen for some data is the only one of the model
and its subclasses that claims the data. -/
theorem C82_unique_claim_single_inheritance (h : Hierarchy) (hok : Ok h) (hs : ∀ (i : Nat) (bs : List Nat), h[i]? = some bs → bs.length ≤ 1) (name : Nat → String)
    (hname : Function.Injective name) (env : Env) (hd : Describes h name env) (m k : Nat) (hm : m < h.length) (hk : k = m ∨ Derives h k m) (v : Val)
    (hcl : Claims env v (name k)) :
    PolySpec.findModel ⟨[name m], true, none⟩ env v = .ok (name k) ↔
      ∀ c, c = m ∨ Derives h c m → Claims env v (name c) → c = k := by
  have hcand : ∀ x, Candidate ⟨[name m], true, none⟩ env x ↔ ∃ c, (c = m ∨ Derives h c m) ∧ x = name c := by
    intro x
    unfold Candidate
    simp only [List.mem_singleton]
    constructor
    · rintro ⟨_, rfl, rfl | ⟨-, hx⟩⟩
      · exact ⟨m, Or.inl rfl, rfl⟩
      · rw [hd m hm] at hx
        obtain ⟨c, hc, rfl⟩ := List.mem_map.1 hx
        exact ⟨c, Or.inr ((C82_lists_the_descendants h hok m c).1.1 hc), rfl⟩
    · rintro ⟨c, rfl | hc, rfl⟩
      · exact ⟨_, rfl, Or.inl rfl⟩
      · refine ⟨_, rfl, Or.inr ⟨trivial, ?_⟩⟩
        rw [hd m hm]
        exact List.mem_map.2 ⟨c, (C82_lists_the_descendants h hok m c).1.2 hc, rfl⟩
  have hnd : (PolySpec.candidates ⟨[name m], true, none⟩ env).Nodup := by
    simp only [PolySpec.candidates, if_true, List.flatMap_cons, List.flatMap_nil, List.append_nil, hd m hm]
    rw [← List.map_cons]
    refine List.Nodup.map hname ?_
    rw [List.nodup_cons]
    exact ⟨(C82_lists_the_descendants h hok m m).2, C82_single_inheritance h hok hs m⟩
  rw [C66_unique_claim _ env rfl hnd v _ ((hcand _).2 ⟨k, hk, rfl⟩) hcl]
  constructor
  · intro hall c hc hclaim
    exact hname (hall _ ((hcand _).2 ⟨c, hc, rfl⟩) hclaim)
  · rintro hall _ hx hclaim
    obtain ⟨c, hc, rfl⟩ := (hcand _).1 hx
    rw [hall c hc hclaim]

/-- **C82.** A class that derives from the listed model on two paths can never be chosen by its hook: whenever it claims the data, the library reports
the input as ambiguous, even if no other class claims it. -/
theorem C82_counterexample_diamond (h : Hierarchy) (hok : Ok h) (name : Nat → String) (env : Env) (hd : Describes h name env) (m k : Nat)
    (hm : m < h.length) (p q : List Nat) (hp : Path h m p) (hq : Path h m q) (hpq : p ≠ q) (hpk : p.getLast? = some k) (hqk : q.getLast? = some k)
    (v : Val) (hcl : Claims env v (name k)) : ∀ x, PolySpec.findModel ⟨[name m], true, none⟩ env v ≠ .ok x := by
  intro x hx
  rw [C66_find_model _ env rfl] at hx
  obtain ⟨ps, hn, hps, he⟩ := C82_one_entry_per_path h hok m
  -- the class occurs twice
  have hcount : 2 ≤ (getAllSubclasses h m).count k := by
    have e : (getAllSubclasses h m).count k = ((getAllSubclasses h m).map some).count (some k) :=
      (List.count_map_of_injective _ _ (fun _ _ e => Option.some.inj e) _).symm
    rw [e, he, List.count, List.countP_map]
    have hsub : [p, q].Subperm (ps.filter fun r => r.getLast? == some k) := by
      refine List.subperm_of_subset (by simp [hpq]) ?_
      intro r hr
      simp only [List.mem_cons, List.not_mem_nil, or_false] at hr
      rcases hr with rfl | rfl
      · simp [List.mem_filter, (hps _).2 hp, hpk]
      · simp [List.mem_filter, (hps _).2 hq, hqk]
    have hl := hsub.length_le
    rw [← List.countP_eq_length_filter] at hl
    exact hl
  have hcand : (PolySpec.candidates ⟨[name m], true, none⟩ env) = name m :: (getAllSubclasses h m).map name := by
    simp only [PolySpec.candidates, if_true, List.flatMap_cons, List.flatMap_nil, List.append_nil, hd m hm]
  have hc2 : 2 ≤ (PolySpec.candidates ⟨[name m], true, none⟩ env).count (name k) := by
    rw [hcand]
    have h1 : (getAllSubclasses h m).count k ≤ ((getAllSubclasses h m).map name).count (name k) := List.count_le_count_map
    have h2 : ((getAllSubclasses h m).map name).count (name k) ≤ (name m :: (getAllSubclasses h m).map name).count (name k) :=
      (List.sublist_cons_self _ _).count_le _
    omega
  rcases hx with ⟨pre, post, e, hcx, hno⟩ | ⟨hno, -⟩
  · rw [e] at hc2
    have hk : name k ∈ pre ++ post := by
      by_cases hkx : name k = x
      · rw [← hkx] at hc2
        rw [List.count_append, List.count_cons_self] at hc2
        have : 0 < (pre ++ post).count (name k) := by rw [List.count_append]; omega
        exact List.count_pos_iff.1 this
      · have : name k ∈ pre ++ x :: post := List.count_pos_iff.1 (by omega)
        rcases List.mem_append.1 this with h1 | h1
        · exact List.mem_append.2 (Or.inl h1)
        · rcases List.mem_cons.1 h1 with h1 | h1
          · exact absurd h1 hkx
          · exact List.mem_append.2 (Or.inr h1)
    exact hno _ hk hcl
  · have : name k ∈ PolySpec.candidates ⟨[name m], true, none⟩ env := List.count_pos_iff.1 (by omega)
    exact hno _ ((mem_candidates _ _ _).1 this) hcl

/-! The hypotheses are met. -/

/-- `Base`; `Left(Base)`, `Right(Base)`; `Both(Left, Right)`. -/
def diamond : Hierarchy := [[], [0], [0], [1, 2]]

theorem diamond_ok : Ok diamond := by
  intro i bs h
  match i, h with
  | 0, h => cases h; simp
  | 1, h => cases h; simp
  | 2, h => cases h; simp
  | 3, h => cases h; simp
  | n + 4, h => simp [diamond] at h

example : getAllSubclasses diamond 0 = [1, 3, 2, 3] := by decide

example : Path diamond 0 [1, 3] ∧ Path diamond 0 [2, 3] :=
  ⟨.more 0 1 [0] _ rfl (by simp) (.last 1 3 [1, 2] rfl (by simp)), .more 0 2 [0] _ rfl (by simp) (.last 2 3 [1, 2] rfl (by simp))⟩

/-- `Base`; `A(Base)`, `B(A)`, `C(Base)`. -/
example : getAllSubclasses [[], [0], [1], [0]] 0 = [1, 2, 3] := by decide

end Verif.Lib.Subclass
