import Verif.Core.ExportHooks
import Verif.Props.Factory
import Verif.Props.Converter

/-!
# C104: user code called by exports — specification and the judgement about runs
-/
namespace Verif.Exports

open Verif

/-! ## Specification -/

/-- The results of the user code depend on the arguments only. -/
structure Hooks.Steady (h : Hooks σ) : Prop where
  getter : ∀ p (g : Data → Option Val) (d : Data) (s : σ), match g d with
    | some v => (h.getter p g d s).1 = .ok v
    | none => ∃ e, (h.getter p g d s).1 = .error e
  role : ∀ p (f : RoleFn) name v, Res (h.role p f name v) (.ok (f name v))
  conv : ∀ p fmt l app v, Res (h.conv p fmt l app v) (leafX l app v fmt)

/-- The order of the steps at one spot. -/
def Hop.rank : Hop → Nat
  | .get => 0
  | .role => 1
  | .value => 2
  | .conv => 0
  | .at i => i

/-- The spot `p` comes before `q`: `q` is inside `p`, or where they part, the step of `p` comes first. -/
def Earlier (p q : Spot) : Prop := (∃ a t, q = p ++ a :: t) ∨ ∃ r a b p' q', p = r ++ a :: p' ∧ q = r ++ b :: q' ∧ a.rank < b.rank

/-- The value of a field as it was read: a getter was called, and an exception of it counts as `Undefined`. -/
def Got (evs : List Event) (p : Spot) (fd : FieldDef) (v : Val) : Src → Prop
  | .inst d =>
    match fd.fget with
    | some g => ∃ r : R Val, ⟨p ++ [.get], .getter g d r⟩ ∈ evs ∧ v = (match r with | .ok w => w | .error _ => .undef)
    | none => v = rawValue d fd.name
  | .map d => v = rawValue d fd.name
  | .other => v = .undef

/-- The role function said whether the field is left out. -/
def Asked (evs : List Event) (p : Spot) (name : String) (v : Val) (b : Bool) : Option RoleFn → Prop
  | some g => ⟨p ++ [.role], .role g name v (.ok b)⟩ ∈ evs
  | none => b = false

/-- The field at the spot `p` was read, then the role function was asked, and the value was exported if it is there and permitted. -/
def FieldDone (ctx : ECtx) (evs : List Event) (p : Spot) (owner : Nat) (flt : Option RoleFn) (src : Src) (fd : FieldDef) : Prop :=
  ∃ v b, Got evs p fd v src ∧ Asked evs p fd.name v b flt ∧
    (b = false → exportLevelOf ctx owner fd.field ≠ DROP → v.isEmpty = false → ⟨p ++ [.value], .begin (.value owner fd.field v)⟩ ∈ evs)

/-- The value at the spot `p` was exported: the conversion of a scalar was called with it; the items of a list or dict were exported, each at its spot; a nested model was exported. -/
def ValueDone (env : Env) (ctx : ECtx) (evs : List Event) (p : Spot) (owner : Nat) (v : Val) : FType → Prop
  | .leaf l => ∃ w, ⟨p ++ [.conv], .conv ctx.fmt l ctx.app v (.ok w)⟩ ∈ evs
  | .list inner _ _ => exportLevelOf ctx owner inner = DROP ∨ ∃ xs, iterItems env v = some xs ∧ ∀ (i : Nat) (x : Val), xs[i]? = some x → ⟨p ++ [.at i], .begin (.value owner inner x)⟩ ∈ evs
  | .dict inner _ => exportLevelOf ctx owner inner = DROP ∨ ∃ xs, iterPairs env v = some xs ∧ ∀ (i : Nat) (kx : Key × Val), xs[i]? = some kx → ⟨p ++ [.at i], .begin (.value owner inner kx.2)⟩ ∈ evs
  | t => ∃ c src, nested env t v = .ok (c, src) ∧ ⟨p ++ [.conv], .begin (.model c src)⟩ ∈ evs

/-- What else must have happened if an event happened and the run succeeded. -/
def Needs (env : Env) (ctx : ECtx) (evs : List Event) : Event → Prop
  | ⟨p, .begin (.model c src)⟩ => ∃ flt, roleFilter ctx c = some flt ∧ ∀ (i : Nat) (fd : FieldDef), c.fields[i]? = some fd → FieldDone ctx evs (p ++ [.at i]) c.exportLevel flt src fd
  | ⟨p, .begin (.value owner f v)⟩ => ValueDone env ctx evs p owner v f.ty
  | _ => True

/-- Why an event happens: the run began with it (`top`), or another event is the reason. -/
inductive Cause (env : Env) (ctx : ECtx) (top : Event) (evs : List Event) : Event → Prop
  | top : Cause env ctx top evs top
  | getter {p i c d fd g r} (hm : ⟨p, .begin (.model c (.inst d))⟩ ∈ evs) (hi : (c.fields : List FieldDef)[i]? = some fd) (hg : fd.fget = some g) :
    Cause env ctx top evs ⟨p ++ [.at i] ++ [.get], .getter g d r⟩
  | role {p i c src fd g v r} (hm : ⟨p, .begin (.model c src)⟩ ∈ evs) (hi : (c.fields : List FieldDef)[i]? = some fd) (hf : roleFilter ctx c = some (some g)) (hv : Got evs (p ++ [.at i]) fd v src) :
    Cause env ctx top evs ⟨p ++ [.at i] ++ [.role], .role g fd.name v r⟩
  | value {p i c src fd flt v} (hm : ⟨p, .begin (.model c src)⟩ ∈ evs) (hi : (c.fields : List FieldDef)[i]? = some fd) (hf : roleFilter ctx c = some flt) (hv : Got evs (p ++ [.at i]) fd v src)
    (ha : Asked evs (p ++ [.at i]) fd.name v false flt) (hl : exportLevelOf ctx c.exportLevel fd.field ≠ DROP) (hne : v.isEmpty = false) :
    Cause env ctx top evs ⟨p ++ [.at i] ++ [.value], .begin (.value c.exportLevel fd.field v)⟩
  | conv {p owner f v l r} (hm : ⟨p, .begin (.value owner f v)⟩ ∈ evs) (ht : f.ty = .leaf l) : Cause env ctx top evs ⟨p ++ [.conv], .conv ctx.fmt l ctx.app v r⟩
  | item {p i owner f v inner mn mx xs x} (hm : ⟨p, .begin (.value owner f v)⟩ ∈ evs) (ht : f.ty = .list inner mn mx) (hl : exportLevelOf ctx owner inner ≠ DROP) (hx : iterItems env v = some xs)
    (hi : (xs : List Val)[i]? = some x) : Cause env ctx top evs ⟨p ++ [.at i], .begin (.value owner inner x)⟩
  | entry {p i owner f v inner co xs kx} (hm : ⟨p, .begin (.value owner f v)⟩ ∈ evs) (ht : f.ty = .dict inner co) (hl : exportLevelOf ctx owner inner ≠ DROP) (hx : iterPairs env v = some xs)
    (hi : (xs : List (Key × Val))[i]? = some kx) : Cause env ctx top evs ⟨p ++ [.at i], .begin (.value owner inner kx.2)⟩
  | nested {p owner f v c src} (hm : ⟨p, .begin (.value owner f v)⟩ ∈ evs) (hn : nested env f.ty v = .ok (c, src)) : Cause env ctx top evs ⟨p ++ [.conv], .begin (.model c src)⟩

/-- A role function or a conversion raised `x`. -/
def Raised (e : Event) (x : Exc) : Prop := (∃ f name v, e.deed = .role f name v (.error x)) ∨ ∃ fmt l app v, e.deed = .conv fmt l app v (.error x)

/-- The exceptions of the engine itself: an unknown role, values of the wrong kind, unknown classes, too deep a recursion. -/
def Engine (x : Exc) : Prop := x = .fuel ∨ x = .other "ValueError" ∨ x = .other "TypeError" ∨ x = .other "AttributeError" ∨ x = .other "ImportError" ∨ x = .other "Exception"

/-! ## More events do no harm -/

theorem Got.mono {l l' : List Event} (h : ∀ e ∈ l, e ∈ l') {p : Spot} {fd : FieldDef} {v : Val} {src : Src} (hg : Got l p fd v src) : Got l' p fd v src := by
  cases src with
  | inst d =>
    unfold Got at hg ⊢
    dsimp only at hg ⊢
    cases hf : fd.fget with
    | none => rw [hf] at hg; exact hg
    | some g => rw [hf] at hg; obtain ⟨r, hr, hv⟩ := hg; exact ⟨r, h _ hr, hv⟩
  | map d => exact hg
  | other => exact hg

theorem Asked.mono {l l' : List Event} (h : ∀ e ∈ l, e ∈ l') {p : Spot} {name : String} {v : Val} {b : Bool} {flt : Option RoleFn} (ha : Asked l p name v b flt) : Asked l' p name v b flt := by
  cases flt with
  | none => exact ha
  | some g => exact h _ ha

theorem FieldDone.mono {l l' : List Event} (h : ∀ e ∈ l, e ∈ l') {ctx : ECtx} {p : Spot} {owner : Nat} {flt : Option RoleFn} {src : Src} {fd : FieldDef} (hd : FieldDone ctx l p owner flt src fd) :
    FieldDone ctx l' p owner flt src fd := by
  obtain ⟨v, b, hg, ha, hw⟩ := hd
  exact ⟨v, b, hg.mono h, ha.mono h, fun h1 h2 h3 => h _ (hw h1 h2 h3)⟩

theorem ValueDone.mono {l l' : List Event} (h : ∀ e ∈ l, e ∈ l') {env : Env} {ctx : ECtx} {p : Spot} {owner : Nat} {v : Val} {t : FType} (hd : ValueDone env ctx l p owner v t) :
    ValueDone env ctx l' p owner v t := by
  cases t with
  | leaf l => obtain ⟨w, hw⟩ := hd; exact ⟨w, h _ hw⟩
  | list inner mn mx =>
    rcases hd with hd | ⟨xs, hx, hi⟩
    · exact .inl hd
    · exact .inr ⟨xs, hx, fun i x e => h _ (hi i x e)⟩
  | dict inner co =>
    rcases hd with hd | ⟨xs, hx, hi⟩
    · exact .inl hd
    · exact .inr ⟨xs, hx, fun i x e => h _ (hi i x e)⟩
  | model k => obtain ⟨c, src, hn, hm⟩ := hd; exact ⟨c, src, hn, h _ hm⟩
  | poly q => obtain ⟨c, src, hn, hm⟩ := hd; exact ⟨c, src, hn, h _ hm⟩

theorem Needs.mono {l l' : List Event} (h : ∀ e ∈ l, e ∈ l') {env : Env} {ctx : ECtx} {e : Event} (hd : Needs env ctx l e) : Needs env ctx l' e := by
  obtain ⟨p, w⟩ := e
  cases w with
  | begin x =>
    cases x with
    | model c src => obtain ⟨flt, hf, hi⟩ := hd; exact ⟨flt, hf, fun i fd e => (hi i fd e).mono h⟩
    | value owner f v => exact ValueDone.mono h hd
  | getter => trivial
  | role => trivial
  | conv => trivial

theorem Cause.mono {l l' : List Event} (h : ∀ e ∈ l, e ∈ l') {env : Env} {ctx : ECtx} {top e : Event} (hd : Cause env ctx top l e) : Cause env ctx top l' e := by
  cases hd with
  | top => exact .top
  | getter hm hi hg => exact .getter (h _ hm) hi hg
  | role hm hi hf hv => exact .role (h _ hm) hi hf (hv.mono h)
  | value hm hi hf hv ha hl hne => exact .value (h _ hm) hi hf (hv.mono h) (ha.mono h) hl hne
  | conv hm ht => exact .conv (h _ hm) ht
  | item hm ht hl hx hi => exact .item (h _ hm) ht hl hx hi
  | entry hm ht hl hx hi => exact .entry (h _ hm) ht hl hx hi
  | nested hm hn => exact .nested (h _ hm) hn

theorem seq_ok {m : St σ α} {k : α → St σ β} {s s' : σ} {a : α} (h : m s = (.ok a, s')) : St.bind m k s = k a s' := by
  unfold St.bind; rw [h]

theorem seq_error {m : St σ α} {k : α → St σ β} {s s' : σ} {e : Exc} (h : m s = (.error e, s')) : St.bind m k s = (.error e, s') := by
  unfold St.bind; rw [h]

/-! ## The judgement -/

/-- What is claimed about the events `evs` of a computation with result `r` that works at the spots `W`; `Pre` is known about the events before, `Post` about the events up to its success. -/
structure Fine (env : Env) (ctx : ECtx) (top : Event) (W : Spot → Prop) (Pre : List Event → Prop) (Post : α → List Event → Prop) (r : R α) (evs : List Event) : Prop where
  within : ∀ e ∈ evs, W e.spot
  order : evs.Pairwise fun a b => Earlier a.spot b.spot
  crash : ∀ e ∈ evs, ∀ x, Raised e x → r = .error x ∧ ∃ l, evs = l ++ [e]
  origin : ∀ x, r = .error x → (∃ e ∈ evs, Raised e x) ∨ Engine x
  causes : ∀ l, Pre l → ∀ e ∈ evs, Cause env ctx top (l ++ evs) e
  needs : ∀ l, Pre l → ∀ a, r = .ok a → Post a (l ++ evs) ∧ ∀ e ∈ evs, Needs env ctx (l ++ evs) e

/-- `m'` does what `m` does, and the events it appends are fine. -/
def Logged (env : Env) (ctx : ECtx) (top : Event) (W : Spot → Prop) (Pre : List Event → Prop) (Post : α → List Event → Prop) (m : St σ α) (m' : St (σ × List Event) α) : Prop :=
  ∀ s, ∃ evs, (∀ l, m' (s, l) = ((m s).1, ((m s).2, l ++ evs))) ∧ Fine env ctx top W Pre Post (m s).1 evs

section judgement
variable {env : Env} {ctx : ECtx} {top : Event} {W W1 W2 : Spot → Prop} {Pre : List Event → Prop}

theorem Logged.pure {Post : α → List Event → Prop} {r : R α} (he : ∀ x, r = .error x → Engine x) (hp : ∀ l, Pre l → ∀ a, r = .ok a → Post a l) :
    Logged (σ := σ) env ctx top W Pre Post (St.pure r) (St.pure r) := by
  intro s
  refine ⟨[], fun l => ?_, nofun, .nil, nofun, fun x hx => .inr (he x hx), nofun, fun l hl a ha => ⟨?_, nofun⟩⟩
  · rw [List.append_nil]; rfl
  · rw [List.append_nil]; exact hp l hl a ha

theorem Logged.ok {Post : α → List Event → Prop} {a : α} (hp : ∀ l, Pre l → Post a l) : Logged (σ := σ) env ctx top W Pre Post (St.pure (.ok a)) (St.pure (.ok a)) :=
  Logged.pure nofun fun l hl b hb => by cases hb; exact hp l hl

/-- A weaker claim. -/
theorem Logged.weaken {Pre' : List Event → Prop} {Post Post' : α → List Event → Prop} {m : St σ α} {m' : St (σ × List Event) α} (h : Logged env ctx top W1 Pre Post m m') (hW : ∀ p, W1 p → W2 p)
    (hpre : ∀ l, Pre' l → Pre l) (hpost : ∀ a l l', Pre' l → (∀ e ∈ l, e ∈ l') → Post a l' → Post' a l') : Logged env ctx top W2 Pre' Post' m m' := by
  intro s
  obtain ⟨evs, hm, hf⟩ := h s
  refine ⟨evs, hm, fun e he => hW _ (hf.within e he), hf.order, hf.crash, hf.origin, fun l hl => hf.causes l (hpre l hl), fun l hl a ha => ?_⟩
  obtain ⟨h1, h2⟩ := hf.needs l (hpre l hl) a ha
  exact ⟨hpost a l _ hl (fun e he => List.mem_append_left _ he) h1, h2⟩

theorem Logged.bind {Post : α → List Event → Prop} {Post' : β → List Event → Prop} {m : St σ α} {m' : St (σ × List Event) α} {k : α → St σ β} {k' : α → St (σ × List Event) β}
    (hm : Logged env ctx top W1 Pre Post m m') (hk : ∀ a, Logged env ctx top W2 (Post a) Post' (k a) (k' a)) (hb : ∀ p q, W1 p → W2 q → Earlier p q) (h1 : ∀ p, W1 p → W p) (h2 : ∀ p, W2 p → W p) :
    Logged env ctx top W Pre Post' (St.bind m k) (St.bind m' k') := by
  intro s
  obtain ⟨evs, hm, hf⟩ := hm s
  cases hr : (m s).1 with
  | error x =>
    have hms : St.bind m k s = (.error x, (m s).2) := seq_error (Prod.ext hr rfl)
    rw [hr] at hf
    refine ⟨evs, fun l => ?_, ?_⟩
    · rw [seq_error (e := x) ((hm l).trans (Prod.ext hr rfl)), hms]
    · rw [hms]
      exact ⟨fun e he => h1 _ (hf.within e he), hf.order, fun e he y hy => by
        obtain ⟨h3, h4⟩ := hf.crash e he y hy
        cases h3; exact ⟨rfl, h4⟩, fun y hy => by cases hy; exact hf.origin x rfl, hf.causes, nofun⟩
  | ok a =>
    obtain ⟨evs', hk', hg⟩ := hk a (m s).2
    have hms : St.bind m k s = k a (m s).2 := seq_ok (Prod.ext hr rfl)
    rw [hr] at hf
    refine ⟨evs ++ evs', fun l => ?_, ?_⟩
    · rw [seq_ok (a := a) ((hm l).trans (Prod.ext hr rfl)), hms, hk' (l ++ evs), List.append_assoc]
    · rw [hms]
      refine ⟨fun e he => ?_, ?_, ?_, ?_, ?_, ?_⟩
      · rcases List.mem_append.mp he with he | he
        · exact h1 _ (hf.within e he)
        · exact h2 _ (hg.within e he)
      · exact List.pairwise_append.mpr ⟨hf.order, hg.order, fun a ha b hb' => hb _ _ (hf.within a ha) (hg.within b hb')⟩
      · intro e he x hx
        rcases List.mem_append.mp he with he | he
        · cases (hf.crash e he x hx).1
        · obtain ⟨h3, l, h4⟩ := hg.crash e he x hx
          exact ⟨h3, evs ++ l, by rw [h4, List.append_assoc]⟩
      · intro x hx
        rcases hg.origin x hx with ⟨e, he, hx⟩ | hx
        · exact .inl ⟨e, List.mem_append_right _ he, hx⟩
        · exact .inr hx
      · intro l hl e he
        rw [← List.append_assoc]
        rcases List.mem_append.mp he with he | he
        · exact (hf.causes l hl e he).mono fun e he => List.mem_append_left _ he
        · exact hg.causes _ (hf.needs l hl a rfl).1 e he
      · intro l hl b hb
        obtain ⟨h3, h4⟩ := hf.needs l hl a rfl
        obtain ⟨h5, h6⟩ := hg.needs _ h3 b hb
        rw [← List.append_assoc]
        refine ⟨h5, fun e he => ?_⟩
        rcases List.mem_append.mp he with he | he
        · exact (h4 e he).mono fun e he => List.mem_append_left _ he
        · exact h6 e he

/-- Something begins; its needs are met at the end. -/
theorem Logged.begun {Post : α → List Event → Prop} {h : Hooks σ} {p : Spot} {x : Visit} {k : St σ α} {k' : St (σ × List Event) α}
    (hk : Logged env ctx top (fun q => ∃ a t, q = p ++ a :: t) (fun l => Pre l ∧ ⟨p, .begin x⟩ ∈ l) (fun a l => Post a l ∧ Needs env ctx l ⟨p, .begin x⟩) k k')
    (hc : ∀ l, Pre l → Cause env ctx top (l ++ [⟨p, .begin x⟩]) ⟨p, .begin x⟩) (hpre : ∀ l, Pre l → ∀ e, Pre (l ++ [e])) :
    Logged env ctx top (fun q => q = p ∨ ∃ a t, q = p ++ a :: t) Pre (fun a l => Post a l ∧ ⟨p, .begin x⟩ ∈ l) (St.bind (noted h p x) fun _ => k) (St.bind (noted h.watched p x) fun _ => k') := by
  intro s
  obtain ⟨evs, hm, hf⟩ := hk (h.note p x s)
  refine ⟨⟨p, .begin x⟩ :: evs, fun l => ?_, ?_⟩
  · have : St.bind (noted h.watched p x) (fun _ => k') (s, l) = k' (h.note p x s, l ++ [⟨p, .begin x⟩]) := rfl
    rw [this, hm, List.append_assoc]
    rfl
  · have : St.bind (noted h p x) (fun _ => k) s = k (h.note p x s) := rfl
    rw [this]
    have hassoc : ∀ l, l ++ (⟨p, .begin x⟩ :: evs) = (l ++ [⟨p, .begin x⟩]) ++ evs := fun l => by rw [List.append_assoc]; rfl
    have hin : ∀ l, (⟨p, .begin x⟩ : Event) ∈ l ++ [⟨p, .begin x⟩] := fun l => List.mem_append_right _ (.head _)
    refine ⟨fun e he => ?_, List.pairwise_cons.mpr ⟨fun e he => .inl (hf.within e he), hf.order⟩, ?_, ?_, ?_, ?_⟩
    · cases he with
      | head => exact .inl rfl
      | tail _ he => exact .inr (hf.within e he)
    · intro e he y hy
      cases he with
      | head => rcases hy with ⟨_, _, _, hy⟩ | ⟨_, _, _, _, hy⟩ <;> cases hy
      | tail _ he =>
        obtain ⟨h1, l, h2⟩ := hf.crash e he y hy
        exact ⟨h1, ⟨p, .begin x⟩ :: l, by rw [h2]; rfl⟩
    · intro y hy
      rcases hf.origin y hy with ⟨e, he, hx⟩ | hx
      · exact .inl ⟨e, .tail _ he, hx⟩
      · exact .inr hx
    · intro l hl e he
      rw [hassoc]
      cases he with
      | head => exact (hc l hl).mono fun e he => List.mem_append_left _ he
      | tail _ he => exact hf.causes _ ⟨hpre l hl _, hin l⟩ e he
    · intro l hl a ha
      rw [hassoc]
      obtain ⟨⟨h1, h2⟩, h3⟩ := hf.needs _ ⟨hpre l hl _, hin l⟩ a ha
      refine ⟨⟨h1, List.mem_append_left _ (hin l)⟩, fun e he => ?_⟩
      cases he with
      | head => exact h2
      | tail _ he => exact h3 e he

/-- User code is called. -/
theorem Logged.call {m : St σ α} {p : Spot} {w : R α → Deed} (hc : ∀ l, Pre l → ∀ r, Cause env ctx top (l ++ [⟨p, w r⟩]) ⟨p, w r⟩) (hn : ∀ l r, Needs env ctx l ⟨p, w r⟩)
    (hx : ∀ r x, Raised ⟨p, w r⟩ x ↔ r = .error x) :
    Logged env ctx top (· = p) Pre (fun a l => (∃ l', Pre l' ∧ l = l' ++ [⟨p, w (.ok a)⟩])) m (watched p w m) := by
  intro s
  refine ⟨[⟨p, w (m s).1⟩], fun l => rfl, fun e he => ?_, List.pairwise_singleton _ _, fun e he x hr => ?_, fun x hr => .inl ⟨_, .head _, (hx _ _).mpr hr⟩, fun l hl e he => ?_,
    fun l hl a ha => ⟨⟨l, hl, by rw [ha]⟩, fun e he => ?_⟩⟩
  · cases List.mem_singleton.mp he; rfl
  · cases List.mem_singleton.mp he; exact ⟨(hx _ _).mp hr, [], rfl⟩
  · cases List.mem_singleton.mp he; exact hc l hl _
  · cases List.mem_singleton.mp he; exact hn _ _

theorem earlier {r : Spot} {a b : Hop} (s t : Spot) (h : a.rank < b.rank) : Earlier (r ++ a :: s) (r ++ b :: t) := .inr ⟨r, a, b, s, t, rfl, rfl, h⟩

/-! ## The engine -/

variable {h : Hooks σ} {recH : HERec σ} {recW : HERec (σ × List Event)}

theorem readH_logged {p : Spot} {i : Nat} {c : ClassDef} {src : Src} {fd : FieldDef} (hi : (c.fields : List FieldDef)[i]? = some fd) :
    Logged env ctx top (fun q => q = p ++ [.at i] ++ [.get]) (fun l => ⟨p, .begin (.model c src)⟩ ∈ l) (fun v l => ⟨p, .begin (.model c src)⟩ ∈ l ∧ Got l (p ++ [.at i]) fd v src)
      (readH h (p ++ [.at i]) fd src) (readH h.watched (p ++ [.at i]) fd src) := by
  cases src with
  | map d => exact Logged.ok fun l hl => ⟨hl, rfl⟩
  | other => exact Logged.ok fun l hl => ⟨hl, rfl⟩
  | inst d =>
    unfold readH
    dsimp only
    cases hg : fd.fget with
    | none =>
      refine Logged.ok fun l hl => ⟨hl, ?_⟩
      unfold Got
      dsimp only
      rw [hg]
    | some g =>
      dsimp only
      intro s
      have key : ∀ v r, (h.getter (p ++ [.at i] ++ [.get]) g d s).1 = r → v = (match r with | .ok w => w | .error _ => .undef) →
          Fine env ctx top (fun q => q = p ++ [.at i] ++ [.get]) (fun l => ⟨p, .begin (.model c (.inst d))⟩ ∈ l) (fun v l => ⟨p, .begin (.model c (.inst d))⟩ ∈ l ∧ Got l (p ++ [.at i]) fd v (.inst d))
            (.ok v) [⟨p ++ [.at i] ++ [.get], .getter g d r⟩] := by
        intro v r hr hv
        refine ⟨fun e he => ?_, List.pairwise_singleton _ _, fun e he x hx => ?_, nofun, fun l hl e he => ?_, fun l hl a ha => ⟨⟨List.mem_append_left _ hl, ?_⟩, fun e he => ?_⟩⟩
        · cases List.mem_singleton.mp he; rfl
        · cases List.mem_singleton.mp he
          rcases hx with ⟨_, _, _, hx⟩ | ⟨_, _, _, _, hx⟩ <;> cases hx
        · cases List.mem_singleton.mp he
          exact .getter (List.mem_append_left _ hl) hi hg
        · cases ha
          unfold Got
          dsimp only
          rw [hg]
          exact ⟨r, List.mem_append_right _ (.head _), hv⟩
        · cases List.mem_singleton.mp he
          trivial
      rcases hx : h.getter (p ++ [.at i] ++ [.get]) g d s with ⟨r, s'⟩
      refine ⟨[⟨p ++ [.at i] ++ [.get], .getter g d r⟩], fun l => ?_, ?_⟩
      · have hw : h.watched.getter (p ++ [.at i] ++ [.get]) g d (s, l) = (r, (s', l ++ [⟨p ++ [.at i] ++ [.get], .getter g d r⟩])) := by
          change ((h.getter (p ++ [.at i] ++ [.get]) g d s).1, ((h.getter (p ++ [.at i] ++ [.get]) g d s).2, _)) = _
          rw [hx]
        unfold St.handle
        rw [hw, hx]
        cases r <;> rfl
      · unfold St.handle
        rw [hx]
        have h0 : (h.getter (p ++ [.at i] ++ [.get]) g d s).1 = r := by rw [hx]
        cases r with
        | error x => exact key .undef _ h0 rfl
        | ok v => exact key v _ h0 rfl

theorem askH_logged {p : Spot} {i : Nat} {c : ClassDef} {src : Src} {fd : FieldDef} {flt : Option RoleFn} (hi : (c.fields : List FieldDef)[i]? = some fd) (hf : roleFilter ctx c = some flt) (v : Val) :
    Logged env ctx top (fun q => q = p ++ [.at i] ++ [.role]) (fun l => ⟨p, .begin (.model c src)⟩ ∈ l ∧ Got l (p ++ [.at i]) fd v src)
      (fun b l => (⟨p, .begin (.model c src)⟩ ∈ l ∧ Got l (p ++ [.at i]) fd v src) ∧ Asked l (p ++ [.at i]) fd.name v b flt)
      (askH h (p ++ [.at i]) fd.name v flt) (askH h.watched (p ++ [.at i]) fd.name v flt) := by
  cases flt with
  | none => exact Logged.ok fun l hl => ⟨hl, rfl⟩
  | some g =>
    have := Logged.call (env := env) (ctx := ctx) (top := top) (Pre := fun l => ⟨p, .begin (.model c src)⟩ ∈ l ∧ Got l (p ++ [.at i]) fd v src)
      (m := h.role (p ++ [.at i] ++ [.role]) g fd.name v) (p := p ++ [.at i] ++ [.role]) (w := .role g fd.name v)
      (fun l hl r => .role (List.mem_append_left _ hl.1) hi hf (hl.2.mono fun e he => List.mem_append_left _ he)) (fun l r => trivial) (fun r x => ?_)
    · refine this.weaken (fun _ h => h) (fun _ h => h) fun b l l' hl hs hp => ⟨⟨hs _ hl.1, hl.2.mono hs⟩, ?_⟩
      obtain ⟨l0, _, rfl⟩ := hp
      exact List.mem_append_right _ (.head _)
    · constructor
      · rintro (⟨_, _, _, hx⟩ | ⟨_, _, _, _, hx⟩)
        · cases hx; rfl
        · cases hx
      · rintro rfl; exact .inl ⟨_, _, _, rfl⟩

/-- What is assumed of the recursive call. -/
def RecLogged (env : Env) (ctx : ECtx) (top : Event) (recH : HERec σ) (recW : HERec (σ × List Event)) : Prop :=
  ∀ p owner f v (Pre : List Event → Prop), (∀ l, Pre l → Cause env ctx top (l ++ [⟨p, .begin (.value owner f v)⟩]) ⟨p, .begin (.value owner f v)⟩) → (∀ l, Pre l → ∀ e, Pre (l ++ [e])) →
    Logged env ctx top (fun q => q = p ∨ ∃ a t, q = p ++ a :: t) Pre (fun _ l => ⟨p, .begin (.value owner f v)⟩ ∈ l) (recH p owner f v) (recW p owner f v)

theorem permitH_logged (hr : RecLogged env ctx top recH recW) {p : Spot} {i : Nat} {c : ClassDef} {src : Src} {fd : FieldDef} {flt : Option RoleFn} (hi : (c.fields : List FieldDef)[i]? = some fd)
    (hf : roleFilter ctx c = some flt) (v : Val) :
    Logged env ctx top (fun q => ∃ t, q = p ++ [.at i] ++ .value :: t) (fun l => (⟨p, .begin (.model c src)⟩ ∈ l ∧ Got l (p ++ [.at i]) fd v src) ∧ Asked l (p ++ [.at i]) fd.name v false flt)
      (fun _ l => ⟨p, .begin (.model c src)⟩ ∈ l ∧ FieldDone ctx l (p ++ [.at i]) c.exportLevel flt src fd)
      (permitH recH ctx c.exportLevel (p ++ [.at i]) fd v) (permitH recW ctx c.exportLevel (p ++ [.at i]) fd v) := by
  unfold permitH
  by_cases hl : exportLevelOf ctx c.exportLevel fd.field = DROP
  · rw [if_pos hl, if_pos hl]
    exact Logged.ok fun l h => ⟨h.1.1, v, false, h.1.2, h.2, fun _ hn => (hn hl).elim⟩
  · rw [if_neg hl, if_neg hl]
    have hlast : ∀ (w : Val) (W : Spot → Prop), Logged (σ := σ) env ctx top W (fun l => ⟨p, .begin (.model c src)⟩ ∈ l ∧ FieldDone ctx l (p ++ [.at i]) c.exportLevel flt src fd)
        (fun _ l => ⟨p, .begin (.model c src)⟩ ∈ l ∧ FieldDone ctx l (p ++ [.at i]) c.exportLevel flt src fd)
        (St.pure (.ok (if hidden (exportLevelOf ctx c.exportLevel fd.field) fd.field w then none else some (nullify w))))
        (St.pure (.ok (if hidden (exportLevelOf ctx c.exportLevel fd.field) fd.field w then none else some (nullify w)))) := fun w W => Logged.ok fun l h => h
    refine Logged.bind (W1 := fun q => ∃ t, q = p ++ [.at i] ++ .value :: t) (W2 := fun _ => False)
      (Post := fun _ l => ⟨p, .begin (.model c src)⟩ ∈ l ∧ FieldDone ctx l (p ++ [.at i]) c.exportLevel flt src fd) ?_ (fun w => hlast w _) (fun _ _ _ h => h.elim) (fun _ h => h) (fun _ h => h.elim)
    cases he : v.isEmpty with
    | true => exact Logged.ok fun l h => ⟨h.1.1, v, false, h.1.2, h.2, fun _ _ hn => by rw [he] at hn; cases hn⟩
    | false =>
      refine (hr (p ++ [.at i] ++ [.value]) c.exportLevel fd.field v _ (fun l h => ?_) (fun l h e => ?_)).weaken (fun q h => ?_) (fun _ h => h) ?_
      · have hs : ∀ e ∈ l, e ∈ l ++ [⟨p ++ [.at i] ++ [.value], .begin (.value c.exportLevel fd.field v)⟩] := fun e he => List.mem_append_left _ he
        exact .value (hs _ h.1.1) hi hf (h.1.2.mono hs) (h.2.mono hs) hl he
      · have hs : ∀ e' ∈ l, e' ∈ l ++ [e] := fun e he => List.mem_append_left _ he
        exact ⟨⟨hs _ h.1.1, h.1.2.mono hs⟩, h.2.mono hs⟩
      · rcases h with rfl | ⟨a, t, rfl⟩
        · exact ⟨[], rfl⟩
        · exact ⟨a :: t, by simp only [List.append_assoc, List.cons_append, List.nil_append]⟩
      · intro _ l l' hl hs hp
        exact ⟨hs _ hl.1.1, v, false, hl.1.2.mono hs, hl.2.mono hs, fun _ _ _ => hp⟩

theorem exportFieldH_logged (hr : RecLogged env ctx top recH recW) {p : Spot} {i : Nat} {c : ClassDef} {src : Src} {fd : FieldDef} {flt : Option RoleFn} (hi : (c.fields : List FieldDef)[i]? = some fd)
    (hf : roleFilter ctx c = some flt) :
    Logged env ctx top (fun q => ∃ t, q = p ++ .at i :: t) (fun l => ⟨p, .begin (.model c src)⟩ ∈ l)
      (fun _ l => ⟨p, .begin (.model c src)⟩ ∈ l ∧ FieldDone ctx l (p ++ [.at i]) c.exportLevel flt src fd)
      (exportFieldH h recH ctx c.exportLevel flt src (p ++ [.at i]) fd) (exportFieldH h.watched recW ctx c.exportLevel flt src (p ++ [.at i]) fd) := by
  unfold exportFieldH
  refine Logged.bind (W2 := fun q => (∃ t, q = p ++ [.at i] ++ .role :: t) ∨ ∃ t, q = p ++ [.at i] ++ .value :: t) (readH_logged hi) (fun v => ?_) ?_ ?_ ?_
  · refine Logged.bind (W2 := fun q => ∃ t, q = p ++ [.at i] ++ .value :: t) (askH_logged hi hf v) (fun b => ?_) ?_ (fun q h => .inl ⟨[], h⟩) (fun q h => .inr h)
    · cases b with
      | true => exact Logged.ok fun l h => ⟨h.1.1, v, true, h.1.2, h.2, nofun⟩
      | false => exact permitH_logged hr hi hf v
    · rintro _ _ rfl ⟨t, rfl⟩
      exact earlier _ _ (by decide)
  · rintro _ _ rfl (⟨t, rfl⟩ | ⟨t, rfl⟩) <;> exact earlier _ _ (by decide)
  · rintro _ rfl; exact ⟨[.get], by rw [List.append_assoc]; rfl⟩
  · rintro _ (⟨t, rfl⟩ | ⟨t, rfl⟩) <;> exact ⟨_ :: t, by rw [List.append_assoc]; rfl⟩

theorem exportFieldsH_logged (hr : RecLogged env ctx top recH recW) {p : Spot} {c : ClassDef} {src : Src} {flt : Option RoleFn} (hf : roleFilter ctx c = some flt) (fds : List FieldDef) :
    ∀ (i : Nat) (d : Data), (∀ (j : Nat) (fd : FieldDef), fds[j]? = some fd → c.fields[i + j]? = some fd) →
    Logged env ctx top (fun q => ∃ j t, q = p ++ .at j :: t ∧ i ≤ j) (fun l => ⟨p, .begin (.model c src)⟩ ∈ l)
      (fun _ l => ∀ (j : Nat) (fd : FieldDef), fds[j]? = some fd → FieldDone ctx l (p ++ [.at (i + j)]) c.exportLevel flt src fd)
      (exportFieldsH h recH ctx c.exportLevel flt src p i fds d) (exportFieldsH h.watched recW ctx c.exportLevel flt src p i fds d) := by
  induction fds with
  | nil => intro i d _; exact Logged.ok fun l _ => nofun
  | cons fd fds ih =>
    intro i d hi
    refine Logged.bind (W2 := fun q => ∃ j t, q = p ++ .at j :: t ∧ i + 1 ≤ j) (exportFieldH_logged hr (hi 0 fd rfl) hf)
      (fun o => (ih (i + 1) (putX fd d o) fun j fd' hj => ?_).weaken (fun _ h => h) (fun _ h => h.1) fun _ l l' hl hs hp j fd' hj => ?_) ?_ ?_ ?_
    · have := hi (j + 1) fd' hj
      rwa [show i + 1 + j = i + (j + 1) by omega]
    · cases j with
      | zero => cases hj; exact hl.2.mono hs
      | succ j => have := hp j fd' hj; rwa [show i + 1 + j = i + (j + 1) by omega] at this
    · rintro _ _ ⟨t, rfl⟩ ⟨j, t', rfl, hj⟩
      exact earlier _ _ hj
    · rintro _ ⟨t, rfl⟩; exact ⟨i, t, rfl, Nat.le_refl _⟩
    · rintro _ ⟨j, t, rfl, hj⟩; exact ⟨j, t, rfl, by omega⟩

theorem exportLoopH_logged (hr : RecLogged env ctx top recH recW) {p : Spot} {c : ClassDef} {src : Src} (hc : ∀ l, Pre l → Cause env ctx top (l ++ [⟨p, .begin (.model c src)⟩]) ⟨p, .begin (.model c src)⟩)
    (hpre : ∀ l, Pre l → ∀ e, Pre (l ++ [e])) :
    Logged env ctx top (fun q => q = p ∨ ∃ a t, q = p ++ a :: t) Pre (fun _ l => ⟨p, .begin (.model c src)⟩ ∈ l) (exportLoopH h recH ctx c src p) (exportLoopH h.watched recW ctx c src p) := by
  refine (Logged.begun (Post := fun _ _ => True) ?_ hc hpre).weaken (fun _ h => h) (fun _ h => h) fun _ _ _ _ _ h => h.2
  unfold exportBodyH
  cases hf : roleFilter ctx c with
  | none => exact Logged.pure (fun x hx => by cases hx; exact .inr (.inl rfl)) nofun
  | some flt =>
    refine (exportFieldsH_logged (h := h) hr hf c.fields 0 [] (fun j fd hj => by rwa [Nat.zero_add])).weaken (fun q hq => ?_) (fun _ h => h.2) fun _ l l' hl hs hp => ⟨trivial, flt, hf, fun i fd hi => ?_⟩
    · obtain ⟨j, t, rfl, _⟩ := hq; exact ⟨_, _, rfl⟩
    · have := hp i fd hi; rwa [Nat.zero_add] at this

theorem exportItemsH_logged {p : Spot} {owner : Nat} {inner : Field} {hide : Val → Bool} (hr : RecLogged env ctx top recH recW) (hpre : ∀ l, Pre l → ∀ e, Pre (l ++ [e]))
    (hpre' : ∀ l l', Pre l → (∀ e ∈ l, e ∈ l') → Pre l') (xs : List Val) :
    ∀ i, (∀ (j : Nat) (x : Val), xs[j]? = some x → ∀ l, Pre l → Cause env ctx top (l ++ [⟨p ++ [.at (i + j)], .begin (.value owner inner x)⟩]) ⟨p ++ [.at (i + j)], .begin (.value owner inner x)⟩) →
    Logged env ctx top (fun q => ∃ j t, q = p ++ .at j :: t ∧ i ≤ j) Pre (fun _ l => ∀ (j : Nat) (x : Val), xs[j]? = some x → ⟨p ++ [.at (i + j)], .begin (.value owner inner x)⟩ ∈ l)
      (exportItemsH (fun i x => recH (p ++ [.at i]) owner inner x) hide i xs) (exportItemsH (fun i x => recW (p ++ [.at i]) owner inner x) hide i xs) := by
  induction xs with
  | nil => intro i _; exact Logged.ok fun l _ => nofun
  | cons x xs ih =>
    intro i hi
    refine Logged.bind (W1 := fun q => ∃ t, q = p ++ .at i :: t) (W2 := fun q => ∃ j t, q = p ++ .at j :: t ∧ i + 1 ≤ j) (Post := fun _ l => Pre l ∧ ⟨p ++ [.at i], .begin (.value owner inner x)⟩ ∈ l)
      ((hr (p ++ [.at i]) owner inner x Pre (hi 0 x rfl) hpre).weaken (fun q hq => ?_) (fun _ h => h) fun _ l l' hl hs hp => ⟨hpre' l l' hl hs, hp⟩) (fun y => ?_) ?_ ?_ ?_
    · rcases hq with rfl | ⟨a, t, rfl⟩
      · exact ⟨[], rfl⟩
      · exact ⟨a :: t, by rw [List.append_assoc]; rfl⟩
    · refine Logged.bind (W1 := fun q => ∃ j t, q = p ++ .at j :: t ∧ i + 1 ≤ j) (W2 := fun _ => False)
        (Post := fun _ l => ∀ (j : Nat) (x' : Val), (x :: xs)[j]? = some x' → ⟨p ++ [.at (i + j)], .begin (.value owner inner x')⟩ ∈ l)
        ((ih (i + 1) fun j x' hj => ?_).weaken (fun _ h => h) (fun _ h => h.1) fun _ l l' hl hs hp j x' hj => ?_) (fun ys => Logged.ok fun l h => h) (fun _ _ _ h => h.elim) (fun _ h => h) (fun _ h => h.elim)
      · have := hi (j + 1) x' hj
        rwa [show i + 1 + j = i + (j + 1) by omega]
      · cases j with
        | zero => cases hj; exact hs _ hl.2
        | succ j => have := hp j x' hj; rwa [show i + 1 + j = i + (j + 1) by omega] at this
    · rintro _ _ ⟨t, rfl⟩ ⟨j, t', rfl, hj⟩
      exact earlier _ _ hj
    · rintro _ ⟨t, rfl⟩; exact ⟨i, t, rfl, Nat.le_refl _⟩
    · rintro _ ⟨j, t, rfl, hj⟩; exact ⟨j, t, rfl, by omega⟩

theorem exportPairsH_logged {p : Spot} {owner : Nat} {inner : Field} {hide : Val → Bool} (hr : RecLogged env ctx top recH recW) (hpre : ∀ l, Pre l → ∀ e, Pre (l ++ [e]))
    (hpre' : ∀ l l', Pre l → (∀ e ∈ l, e ∈ l') → Pre l') (xs : List (Key × Val)) :
    ∀ i, (∀ (j : Nat) (x : Key × Val), xs[j]? = some x → ∀ l, Pre l → Cause env ctx top (l ++ [⟨p ++ [.at (i + j)], .begin (.value owner inner x.2)⟩]) ⟨p ++ [.at (i + j)], .begin (.value owner inner x.2)⟩) →
    Logged env ctx top (fun q => ∃ j t, q = p ++ .at j :: t ∧ i ≤ j) Pre (fun _ l => ∀ (j : Nat) (x : Key × Val), xs[j]? = some x → ⟨p ++ [.at (i + j)], .begin (.value owner inner x.2)⟩ ∈ l)
      (exportPairsH (fun i x => recH (p ++ [.at i]) owner inner x) hide i xs) (exportPairsH (fun i x => recW (p ++ [.at i]) owner inner x) hide i xs) := by
  induction xs with
  | nil => intro i _; exact Logged.ok fun l _ => nofun
  | cons kx xs ih =>
    obtain ⟨k, x⟩ := kx
    intro i hi
    refine Logged.bind (W1 := fun q => ∃ t, q = p ++ .at i :: t) (W2 := fun q => ∃ j t, q = p ++ .at j :: t ∧ i + 1 ≤ j) (Post := fun _ l => Pre l ∧ ⟨p ++ [.at i], .begin (.value owner inner x)⟩ ∈ l)
      ((hr (p ++ [.at i]) owner inner x Pre (hi 0 (k, x) rfl) hpre).weaken (fun q hq => ?_) (fun _ h => h) fun _ l l' hl hs hp => ⟨hpre' l l' hl hs, hp⟩) (fun y => ?_) ?_ ?_ ?_
    · rcases hq with rfl | ⟨a, t, rfl⟩
      · exact ⟨[], rfl⟩
      · exact ⟨a :: t, by rw [List.append_assoc]; rfl⟩
    · refine Logged.bind (W1 := fun q => ∃ j t, q = p ++ .at j :: t ∧ i + 1 ≤ j) (W2 := fun _ => False)
        (Post := fun _ l => ∀ (j : Nat) (x' : Key × Val), ((k, x) :: xs)[j]? = some x' → ⟨p ++ [.at (i + j)], .begin (.value owner inner x'.2)⟩ ∈ l)
        ((ih (i + 1) fun j x' hj => ?_).weaken (fun _ h => h) (fun _ h => h.1) fun _ l l' hl hs hp j x' hj => ?_) (fun ys => Logged.ok fun l h => h) (fun _ _ _ h => h.elim) (fun _ h => h) (fun _ h => h.elim)
      · have := hi (j + 1) x' hj
        rwa [show i + 1 + j = i + (j + 1) by omega]
      · cases j with
        | zero => cases hj; exact hs _ hl.2
        | succ j => have := hp j x' hj; rwa [show i + 1 + j = i + (j + 1) by omega] at this
    · rintro _ _ ⟨t, rfl⟩ ⟨j, t', rfl, hj⟩
      exact earlier _ _ hj
    · rintro _ ⟨t, rfl⟩; exact ⟨i, t, rfl, Nat.le_refl _⟩
    · rintro _ ⟨j, t, rfl, hj⟩; exact ⟨j, t, rfl, by omega⟩

theorem nested_engine {t : FType} {v : Val} {x : Exc} (h : nested env t v = .error x) : Engine x := by
  unfold nested at h
  repeat' split at h
  all_goals (try cases h)
  all_goals (first | exact .inr (.inr (.inr (.inr (.inl rfl)))) | exact .inr (.inr (.inr (.inr (.inr rfl)))))

theorem nestedH_logged (hr : RecLogged env ctx top recH recW) {p : Spot} {owner : Nat} {f : Field} {v : Val}
    (hd : ∀ l c src, nested env f.ty v = .ok (c, src) → ⟨p ++ [.conv], .begin (.model c src)⟩ ∈ l → ValueDone env ctx l p owner v f.ty) :
    Logged env ctx top (fun q => ∃ a t, q = p ++ a :: t) (fun l => ⟨p, .begin (.value owner f v)⟩ ∈ l) (fun _ l => ValueDone env ctx l p owner v f.ty)
      (nestedH h recH ctx (p ++ [.conv]) (nested env f.ty v)) (nestedH h.watched recW ctx (p ++ [.conv]) (nested env f.ty v)) := by
  cases hn : nested env f.ty v with
  | error x => exact Logged.pure (fun y hy => by cases hy; exact nested_engine hn) nofun
  | ok cs =>
    obtain ⟨c, src⟩ := cs
    refine Logged.bind (W1 := fun q => ∃ a t, q = p ++ a :: t) (W2 := fun _ => False) (Post := fun _ l => ValueDone env ctx l p owner v f.ty)
      ((exportLoopH_logged (h := h) hr (Pre := fun l => ⟨p, .begin (.value owner f v)⟩ ∈ l) (fun l hl => .nested (List.mem_append_left _ hl) hn) (fun l hl e => List.mem_append_left _ hl)).weaken (fun q hq => ?_)
        (fun _ h => h) fun _ l l' hl hs hp => hd l' c src hn hp) (fun d => Logged.ok fun l h => h) (fun _ _ _ h => h.elim) (fun _ h => h) (fun _ h => h.elim)
    rcases hq with rfl | ⟨a, t, rfl⟩
    · exact ⟨_, [], rfl⟩
    · exact ⟨.conv, a :: t, by rw [List.append_assoc]; rfl⟩

theorem exportTypeH_logged (hr : RecLogged env ctx top recH recW) {p : Spot} {owner : Nat} {f : Field} {v : Val} :
    Logged env ctx top (fun q => ∃ a t, q = p ++ a :: t) (fun l => ⟨p, .begin (.value owner f v)⟩ ∈ l) (fun _ l => ValueDone env ctx l p owner v f.ty)
      (exportTypeH h recH env ctx p owner f.ty v) (exportTypeH h.watched recW env ctx p owner f.ty v) := by
  cases ht : f.ty with
  | leaf l =>
    have := Logged.call (env := env) (ctx := ctx) (top := top) (Pre := fun l => ⟨p, .begin (.value owner f v)⟩ ∈ l)
      (m := h.conv (p ++ [.conv]) ctx.fmt l ctx.app v) (p := p ++ [.conv]) (w := .conv ctx.fmt l ctx.app v)
      (fun l hl r => .conv (List.mem_append_left _ hl) ht) (fun l r => trivial) (fun r x => ?_)
    · refine this.weaken (fun q h => ⟨_, _, h⟩) (fun _ h => h) fun b l l' hl hs hp => ?_
      obtain ⟨l0, _, rfl⟩ := hp
      exact ⟨b, List.mem_append_right _ (.head _)⟩
    · constructor
      · rintro (⟨_, _, _, hx⟩ | ⟨_, _, _, _, hx⟩)
        · cases hx
        · cases hx; rfl
      · rintro rfl; exact .inr ⟨_, _, _, _, rfl⟩
  | list inner mn mx =>
    unfold exportTypeH
    dsimp only
    by_cases hl : exportLevelOf ctx owner inner = DROP
    · rw [if_pos hl, if_pos hl]; exact Logged.ok fun l _ => .inl hl
    · rw [if_neg hl, if_neg hl]
      cases hx : iterItems env v with
      | none => exact Logged.pure (fun x hx => by cases hx; exact .inr (.inr (.inl rfl))) nofun
      | some xs =>
        refine Logged.bind (W1 := fun q => ∃ a t, q = p ++ a :: t) (W2 := fun _ => False) (Post := fun _ l => ValueDone env ctx l p owner v (.list inner mn mx))
          ((exportItemsH_logged (Pre := fun l => ⟨p, .begin (.value owner f v)⟩ ∈ l) hr (fun l hl e => List.mem_append_left _ hl) (fun l l' hl hs => hs _ hl) xs 0
            fun j x hj l hm => ?_).weaken (fun q hq => ?_) (fun _ h => h) fun _ l l' hl hs hp => .inr ⟨xs, hx, fun i x hi => ?_⟩)
          (fun d => Logged.ok fun l h => h) (fun _ _ _ h => h.elim) (fun _ h => h) (fun _ h => h.elim)
        · rw [Nat.zero_add]; exact .item (List.mem_append_left _ hm) ht hl hx hj
        · obtain ⟨j, t, rfl, _⟩ := hq; exact ⟨_, _, rfl⟩
        · have := hp i x hi; rwa [Nat.zero_add] at this
  | dict inner co =>
    unfold exportTypeH
    dsimp only
    by_cases hl : exportLevelOf ctx owner inner = DROP
    · rw [if_pos hl, if_pos hl]; exact Logged.ok fun l _ => .inl hl
    · rw [if_neg hl, if_neg hl]
      cases hx : iterPairs env v with
      | none => exact Logged.pure (fun x hx => by cases hx; exact .inr (.inr (.inr (.inl rfl)))) nofun
      | some xs =>
        refine Logged.bind (W1 := fun q => ∃ a t, q = p ++ a :: t) (W2 := fun _ => False) (Post := fun _ l => ValueDone env ctx l p owner v (.dict inner co))
          ((exportPairsH_logged (Pre := fun l => ⟨p, .begin (.value owner f v)⟩ ∈ l) hr (fun l hl e => List.mem_append_left _ hl) (fun l l' hl hs => hs _ hl) xs 0
            fun j x hj l hm => ?_).weaken (fun q hq => ?_) (fun _ h => h) fun _ l l' hl hs hp => .inr ⟨xs, hx, fun i x hi => ?_⟩)
          (fun d => Logged.ok fun l h => h) (fun _ _ _ h => h.elim) (fun _ h => h) (fun _ h => h.elim)
        · rw [Nat.zero_add]; exact .entry (List.mem_append_left _ hm) ht hl hx hj
        · obtain ⟨j, t, rfl, _⟩ := hq; exact ⟨_, _, rfl⟩
        · have := hp i x hi; rwa [Nat.zero_add] at this
  | model k =>
    have := nestedH_logged (h := h) (owner := owner) (f := f) (v := v) (p := p) hr (fun l c src hn hm => by rw [ht] at hn ⊢; exact ⟨c, src, hn, hm⟩)
    rw [ht] at this
    exact this
  | poly q =>
    have := nestedH_logged (h := h) (owner := owner) (f := f) (v := v) (p := p) hr (fun l c src hn hm => by rw [ht] at hn ⊢; exact ⟨c, src, hn, hm⟩)
    rw [ht] at this
    exact this

theorem fieldExportH_logged (h : Hooks σ) (n : Nat) : RecLogged env ctx top (fieldExportH h env ctx n) (fieldExportH h.watched env ctx n) := by
  induction n with
  | zero => intro p owner f v Pre _ _; exact Logged.pure (fun x hx => by cases hx; exact .inl rfl) nofun
  | succ n ih =>
    intro p owner f v Pre hc hpre
    refine (Logged.begun (Post := fun _ _ => True) ?_ hc hpre).weaken (fun _ h => h) (fun _ h => h) fun _ _ _ _ _ h => h.2
    exact (exportTypeH_logged ih).weaken (fun _ h => h) (fun _ h => h.2) fun _ _ _ _ _ hp => ⟨trivial, hp⟩

end judgement

end Verif.Exports
