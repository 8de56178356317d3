import Verif.Types.Union
import Verif.Samples

/-!
# C89: unions with compound members
-/
namespace Verif.Types

/-! ## Specification -/

/-- The different texts of a list, each at the place of its first occurrence. -/
def Distinct : List String → List String
  | [] => []
  | c :: cs => c :: (Distinct cs).filter (· ≠ c)

/-- The last member of a class. -/
def LastOf (ms : List UMember) (c : String) : Option UMember := (ms.filter fun m => m.cls = c).getLast?

/-- A conversion refuses the value with a `ConversionError`. -/
def Declines (conv : Field → Val → R Val) (m : UMember) (v : Val) : Prop := ∃ msgs, conv m.field v = .error (.field .conv msgs)

/-- `isinstance(value, list)`, or another iterable which is neither a text nor a mapping. -/
def ListLike (v : Val) : Prop := (∃ xs, v = .list xs) ∨ (∃ xs, v = .tuple xs) ∨ (∃ bs, v = .bytes bs) ∨ ∃ c d, v = .inst c d

/-- The error is not a field error (`ConversionError`, `ValidationError`). -/
def NotField (e : Exc) : Prop := ∀ k ms, e ≠ .field k ms

/-! ## Lemmas -/

theorem notField_of_uncaught {e : Exc} (h : e.caught ≠ true) : NotField e := by
  intro k ms he
  subst he
  exact h rfl

theorem listLoop_notField (f : Val → R Val) (xs : List Val) : ∀ (i : Nat) (e : Exc), listLoop f i xs = .error e → NotField e := by
  induction xs with
  | nil => intro i e h; cases h
  | cons x xs ih =>
    intro i e h
    rw [listLoop] at h
    cases hx : f x with
    | ok y =>
      rw [hx] at h
      simp only at h
      cases hr : listLoop f (i + 1) xs with
      | error e' => rw [hr] at h; cases h; exact ih _ _ hr
      | ok r => rw [hr] at h; cases h
    | error e' =>
      rw [hx] at h
      simp only at h
      by_cases hc : e'.caught = true
      · rw [if_pos hc] at h
        cases hr : listLoop f (i + 1) xs with
        | error e'' => rw [hr] at h; cases h; exact ih _ _ hr
        | ok r => rw [hr] at h; cases h
      · rw [if_neg hc] at h; cases h; exact notField_of_uncaught hc

theorem listConv_notField (f : Val → R Val) (xs : List Val) (e : Exc) (h : listConv f xs = .error e) : NotField e := by
  rw [listConv] at h
  cases hr : listLoop f 0 xs with
  | error e' => rw [hr] at h; cases h; exact listLoop_notField f xs _ _ hr
  | ok r =>
    rw [hr] at h
    simp only at h
    split at h
    · cases h
    · cases h; intro k ms he; cases he

theorem dictLoop_notField (f : Val → R Val) (co : Key → R Key) (kvs : List (Key × Val)) :
    ∀ (d : Data) (es : Errs) (e : Exc), dictLoop f co kvs d es = .error e → NotField e := by
  induction kvs with
  | nil => intro d es e h; cases h
  | cons kv kvs ih =>
    obtain ⟨k, x⟩ := kv
    intro d es e h
    rw [dictLoop] at h
    split at h
    · exact ih _ _ _ h
    · rename_i e' _
      by_cases hc : e'.caught = true
      · rw [if_pos hc] at h; exact ih _ _ _ h
      · rw [if_neg hc] at h; cases h; exact notField_of_uncaught hc

theorem dictConv_notField (f : Val → R Val) (co : Key → R Key) (kvs : List (Key × Val)) (e : Exc) (h : dictConv f co kvs = .error e) :
    NotField e := by
  rw [dictConv] at h
  cases hr : dictLoop f co kvs [] [] with
  | error e' => rw [hr] at h; cases h; exact dictLoop_notField f co kvs _ _ _ hr
  | ok r =>
    rw [hr] at h
    simp only at h
    split at h
    · cases h
    · cases h; intro k ms he; cases he

theorem importFields_notField (rec : Rec) (env : Env) (ctx : Ctx) (raw : Data) (fds : List FieldDef) :
    ∀ (a : Acc) (e : Exc), importFields rec env ctx raw fds a = .error e → NotField e := by
  induction fds with
  | nil => intro a e h; cases h
  | cons fd fds ih =>
    intro a e h
    rw [importFields] at h
    cases ho : fieldOutcome rec env ctx raw (a.data.has (.str fd.name)) fd with
    | ok o => rw [ho] at h; exact ih _ _ h
    | error e' =>
      rw [ho] at h
      cases h
      unfold fieldOutcome at ho
      simp only at ho
      split at ho
      · cases ho
      · split at ho
        · split at ho <;> cases ho
        · split at ho
          · cases ho
          · rename_i hc
            cases ho
            exact notField_of_uncaught hc

theorem importBody_notField (rec : Rec) (env : Env) (ctx : Ctx) (c : ClassDef) (raw : Data) (es : Errs) (e : Exc)
    (h : importBody rec env ctx c raw es = .error e) : NotField e := by
  unfold importBody at h
  simp only at h
  split at h
  · rename_i e' hr
    cases h
    exact importFields_notField _ _ _ _ _ _ _ hr
  · split at h
    · cases h
    · cases h; intro k ms he; cases he

theorem runSetters_notField (rec : Rec) (ctx : Ctx) (raw : Data) (b : Bool) (fds : List FieldDef) :
    ∀ (es : Errs) (d : Data) (e : Exc), runSetters rec ctx raw b fds es d = .error e → NotField e := by
  induction fds with
  | nil => intro es d e h; cases h
  | cons fd fds ih =>
    intro es d e h
    rw [runSetters] at h
    split at h
    · exact ih _ _ _ h
    · split at h
      · rename_i e' _
        split at h
        · exact ih _ _ _ h
        · rename_i hc
          split at h
          · exact ih _ _ _ h
          · cases h; exact notField_of_uncaught hc
      · split at h
        · exact ih _ _ _ h
        · split at h
          · exact ih _ _ _ h
          · rename_i hc
            split at h
            · exact ih _ _ _ h
            · cases h; exact notField_of_uncaught hc

theorem runMutate_notField (rec : Rec) (ctx : Ctx) (c : ClassDef) (mu : Mut) (raw : Data) (e : Exc)
    (h : runMutate rec ctx c mu raw = .error e) : NotField e := by
  unfold runMutate at h
  split at h
  · split at h
    · rename_i hr; cases h; exact runSetters_notField _ _ _ _ _ _ _ _ hr
    · cases h
  · split at h
    · rename_i hr; cases h; exact runSetters_notField _ _ _ _ _ _ _ _ hr
    · split at h
      · cases h; intro k ms he; cases he
      · cases h

theorem importLoop_notField (rec : Rec) (env : Env) (ctx : Ctx) (c : ClassDef) (mu : Mut) (raw : Data) (e : Exc)
    (h : importLoop rec env ctx c mu raw = .error e) : NotField e := by
  unfold importLoop at h
  split at h
  · split at h
    · rename_i hr; cases h; exact runMutate_notField _ _ _ _ _ _ hr
    · exact importBody_notField _ _ _ _ _ _ _ h
  · exact importBody_notField _ _ _ _ _ _ _ h

theorem modelValidators_notField (c : ClassDef) (mv : Data) (app : Val) (fds : List FieldDef) :
    ∀ (d : Data) (e : Exc), modelValidators c mv app fds d = .error e → NotField e := by
  induction fds with
  | nil => intro d e h; cases h
  | cons fd fds ih =>
    intro d e h
    rw [modelValidators] at h
    split at h
    · exact ih _ _ h
    · split at h
      · exact ih _ _ h
      · rename_i e' _
        cases e' with
        | field k m =>
          simp only at h
          split at h
          · rename_i hr; cases h; exact ih _ _ hr
          · cases h
        | data es p =>
          simp only at h
          split at h
          · rename_i hr; cases h; exact ih _ _ hr
          · cases h
        | compound es => cases h; intro k ms he; cases he
        | other n => cases h; intro k ms he; cases he
        | fuel => cases h; intro k ms he; cases he

theorem popAll_notField (ns : List String) : ∀ (d : Data) (e : Exc), popAll ns d = .error e → NotField e := by
  induction ns with
  | nil => intro d e h; cases h
  | cons n ns ih =>
    intro d e h
    rw [popAll] at h
    split at h
    · exact ih _ _ h
    · cases h; intro k ms he; cases he

theorem validateModel_notField (c : ClassDef) (mv : Data) (app : Val) (d : Data) (e : Exc) (h : validateModel c mv app d = .error e) :
    NotField e := by
  unfold validateModel at h
  split at h
  · rename_i hr; cases h; exact modelValidators_notField _ _ _ _ _ _ hr
  · split at h
    · rename_i hr; cases h; exact popAll_notField _ _ _ hr
    · cases h

theorem validateFn_notField (rec : Rec) (env : Env) (ctx : Ctx) (c : ClassDef) (mu : Mut) (raw : Data) (e : Exc)
    (h : validateFn rec env ctx c mu raw = .error e) : NotField e := by
  unfold validateFn at h
  cases hm : runMutate rec ctx c mu raw with
  | error e' => rw [hm] at h; cases h; exact runMutate_notField _ _ _ _ _ _ hm
  | ok m =>
    rw [hm] at h
    simp only at h
    have fin : ∀ (es : Errs) (d : Data), (match validateModel c m.data ctx.app d with
        | .error e => (.error e : R Data)
        | .ok (es2, d') => if (es.update es2).isEmpty then .ok d' else .error (.data (es.update es2) d')) = .error e → NotField e := by
      intro es d h
      cases hv : validateModel c m.data ctx.app d with
      | error e' => rw [hv] at h; cases h; exact validateModel_notField _ _ _ _ _ hv
      | ok r =>
        rw [hv] at h
        simp only at h
        split at h
        · cases h
        · cases h; intro k ms he; cases he
    cases hb : importBody rec env ctx c m.raw m.errs with
    | ok d => rw [hb] at h; exact fin _ _ h
    | error e' =>
      rw [hb] at h
      cases e' with
      | data es d => exact fin _ _ h
      | field k ms => exact absurd rfl (importBody_notField _ _ _ _ _ _ _ hb k ms)
      | compound es => cases h; intro k ms he; cases he
      | other n => cases h; intro k ms he; cases he
      | fuel => cases h; intro k ms he; cases he

theorem newInstance_notField (rec : Rec) (env : Env) (ctx : Ctx) (c : ClassDef) (raw : Data) (e : Exc)
    (h : newInstance rec env ctx c raw = .error e) : NotField e := by
  unfold newInstance at h
  split at h
  · rename_i hr
    cases h
    split at hr
    · exact validateFn_notField _ _ _ _ _ _ _ hr
    · exact importLoop_notField _ _ _ _ _ _ _ hr
  · cases h

theorem modelInto_notField (rec : Rec) (env : Env) (ctx : Ctx) (c : ClassDef) (raw : Data) (b : Bool) (e : Exc)
    (h : modelInto rec env ctx c raw b = .error e) : NotField e := by
  unfold modelInto at h
  split at h
  · exact newInstance_notField _ _ _ _ _ _ h
  · split at h
    · rename_i hr; cases h; exact importLoop_notField _ _ _ _ _ _ _ hr
    · cases h

/-! ### The members -/

theorem mem_distinct (c : String) (cs : List String) : c ∈ Distinct cs ↔ c ∈ cs := by
  induction cs with
  | nil => simp [Distinct]
  | cons a cs ih =>
    by_cases h : c = a
    · simp [Distinct, h]
    · simp [Distinct, h, ih]

theorem distinct_snoc (cs : List String) (c : String) : Distinct (cs ++ [c]) = if c ∈ cs then Distinct cs else Distinct cs ++ [c] := by
  induction cs with
  | nil => simp [Distinct]
  | cons a cs ih =>
    rw [List.cons_append, Distinct, ih]
    by_cases hc : c ∈ cs
    · rw [if_pos hc, if_pos (List.mem_cons_of_mem _ hc)]; rfl
    · rw [if_neg hc, List.filter_append]
      by_cases ha : c = a
      · subst ha
        rw [if_pos (List.mem_cons_self), List.filter_cons_of_neg (by simp), List.filter_nil, List.append_nil]; rfl
      · rw [if_neg (by simp [ha, hc]), List.filter_cons_of_pos (by simp [ha])]; rfl

/-- The dictionary `self._types`. -/
def typesDict (ms : List UMember) : Dict String UMember := ms.foldl (fun (d : Dict String UMember) m => d.set m.cls m) []

theorem typesDict_snoc (ms : List UMember) (m : UMember) : typesDict (ms ++ [m]) = (typesDict ms).set m.cls m := by
  unfold typesDict
  rw [List.foldl_append]; rfl

theorem typesDict_get (ms : List UMember) (c : String) : (typesDict ms).get? c = LastOf ms c := by
  induction ms using List.reverseRecOn with
  | nil => rfl
  | append_singleton ms m ih =>
    rw [typesDict_snoc, Dict.get?_set, ih, LastOf, LastOf, List.filter_append]
    by_cases h : m.cls = c
    · rw [if_pos h, List.filter_cons_of_pos (by simp [h]), List.filter_nil, List.getLast?_append]; rfl
    · rw [if_neg h, List.filter_cons_of_neg (by simp [h]), List.filter_nil, List.append_nil]

theorem typesDict_keys (ms : List UMember) : (typesDict ms).keys = Distinct (ms.map UMember.cls) := by
  induction ms using List.reverseRecOn with
  | nil => rfl
  | append_singleton ms m ih =>
    rw [typesDict_snoc, Dict.keys_set, ih, List.map_append, List.map_cons, List.map_nil, distinct_snoc]
    simp only [mem_distinct]

theorem distinct_nodup (cs : List String) : (Distinct cs).Nodup := by
  induction cs with
  | nil => exact List.nodup_nil
  | cons a cs ih =>
    rw [Distinct, List.nodup_cons]
    exact ⟨by simp, ih.filter _⟩

theorem dict_values (d : Dict String UMember) (h : d.Nodup) : d.map Prod.snd = d.keys.filterMap d.get? := by
  have key : ∀ (l : Dict String UMember), (∀ kv ∈ l, kv ∈ d) → l.map Prod.snd = (Dict.keys l).filterMap d.get? := by
    intro l
    induction l with
    | nil => intro _; rfl
    | cons kv l ih =>
      intro hm
      rw [List.map_cons, Dict.keys_cons, List.filterMap_cons, Dict.get?_of_mem (v := kv.2) h (hm kv (by simp)),
        ih fun x hx => hm x (by simp [hx])]
  exact key d fun _ h => h

theorem lastOf_cls {ms : List UMember} {c : String} {m : UMember} (h : LastOf ms c = some m) : m.cls = c ∧ m ∈ ms := by
  have := List.mem_of_getLast? h
  rw [List.mem_filter] at this
  exact ⟨by simpa using this.2, this.1⟩

theorem uFirst_cons (conv : Field → Val → R Val) (v : Val) (m : UMember) (ms : List UMember) : uFirst conv v (m :: ms) =
    match conv m.field v with
    | .ok w => .ok (some (m, w))
    | .error (.field .conv _) => uFirst conv v ms
    | .error e => .error e := rfl

theorem uFirst_skip {conv : Field → Val → R Val} {v : Val} {m : UMember} (h : Declines conv m v) (ms : List UMember) :
    uFirst conv v (m :: ms) = uFirst conv v ms := by
  obtain ⟨msgs, h⟩ := h
  rw [uFirst_cons, h]

theorem uFirst_hit {conv : Field → Val → R Val} {v w : Val} {m : UMember} (h : conv m.field v = .ok w) (ms : List UMember) :
    uFirst conv v (m :: ms) = .ok (some (m, w)) := by rw [uFirst_cons, h]

theorem uFirst_raise {conv : Field → Val → R Val} {v : Val} {m : UMember} {e : Exc} (h : conv m.field v = .error e)
    (hd : ¬ Declines conv m v) (ms : List UMember) : uFirst conv v (m :: ms) = .error e := by
  rw [uFirst_cons, h]
  match e, h with
  | .field .conv ms', h => exact absurd ⟨ms', h⟩ hd
  | .field .valid _, _ => rfl
  | .field .stop _, _ => rfl
  | .compound _, _ => rfl
  | .data _ _, _ => rfl
  | .other _, _ => rfl
  | .fuel, _ => rfl

theorem uFirst_pre {conv : Field → Val → R Val} {v : Val} (pre rest : List UMember) (h : ∀ x ∈ pre, Declines conv x v) :
    uFirst conv v (pre ++ rest) = uFirst conv v rest := by
  induction pre with
  | nil => rfl
  | cons a pre ih => rw [List.cons_append, uFirst_skip (h a (by simp)), ih fun x hx => h x (by simp [hx])]

/-- Either all members decline, or there is a first one that does not. -/
theorem first_or_none (conv : Field → Val → R Val) (v : Val) (ms : List UMember) :
    (∀ m ∈ ms, Declines conv m v) ∨ ∃ pre m post, ms = pre ++ m :: post ∧ (∀ x ∈ pre, Declines conv x v) ∧ ¬ Declines conv m v := by
  induction ms with
  | nil => left; intro m h; cases h
  | cons a ms ih =>
    by_cases ha : Declines conv a v
    · rcases ih with h | ⟨pre, m, post, h1, h2, h3⟩
      · left
        intro m hm
        rcases List.mem_cons.1 hm with rfl | hm
        · exact ha
        · exact h m hm
      · right
        refine ⟨a :: pre, m, post, by rw [h1]; rfl, ?_, h3⟩
        intro x hx
        rcases List.mem_cons.1 hx with rfl | hx
        · exact ha
        · exact h2 x hx
    · exact Or.inr ⟨[], a, ms, rfl, by simp, ha⟩

/-! ## The members of a union -/

/-- **C89, members.**  The members of a union are, per class of type, the last one given, at the place where that class was first
given. -/
theorem C89_members (given : List UMember) :
    uMembers given = (Distinct (given.map UMember.cls)).filterMap (LastOf given) := by
  show (typesDict given).map Prod.snd = _
  rw [dict_values _ (by unfold Dict.Nodup; rw [typesDict_keys]; exact distinct_nodup _), typesDict_keys]
  congr 1
  funext c
  exact typesDict_get given c

/-- **C89, one member per class.**  A union never has two members of one class, and has one of each class given: of two `ModelType`s (or two
`ListType`s, ...) only the last remains. -/
theorem C89_one_per_class (given : List UMember) :
    ((uMembers given).map UMember.cls).Nodup ∧ (∀ m ∈ uMembers given, m ∈ given) ∧
      ∀ c, c ∈ given.map UMember.cls ↔ ∃ m ∈ uMembers given, m.cls = c := by
  have hcls : (uMembers given).map UMember.cls = Distinct (given.map UMember.cls) := by
    rw [C89_members]
    have key : ∀ l : List String, (∀ c ∈ l, ∃ m, LastOf given c = some m) → (l.filterMap (LastOf given)).map UMember.cls = l := by
      intro l
      induction l with
      | nil => intro _; rfl
      | cons c l ih =>
        intro h
        obtain ⟨m, hm⟩ := h c (by simp)
        rw [List.filterMap_cons, hm]
        simp only [List.map_cons]
        rw [(lastOf_cls hm).1, ih fun x hx => h x (by simp [hx])]
    apply key
    intro c hc
    rw [mem_distinct, List.mem_map] at hc
    obtain ⟨m, hm, rfl⟩ := hc
    unfold LastOf
    cases h : (given.filter fun m' => m'.cls = m.cls).getLast? with
    | some x => exact ⟨x, rfl⟩
    | none =>
      rw [List.getLast?_eq_none_iff] at h
      have : m ∈ given.filter fun m' => m'.cls = m.cls := List.mem_filter.2 ⟨hm, by simp⟩
      rw [h] at this
      cases this
  refine ⟨hcls ▸ distinct_nodup _, ?_, ?_⟩
  · intro m hm
    rw [C89_members, List.mem_filterMap] at hm
    obtain ⟨c, _, hc⟩ := hm
    exact (lastOf_cls hc).2
  · intro c
    rw [← mem_distinct, ← hcls, List.mem_map]

/-! ## Which member decides -/

theorem resolve_none (u : UnionSpec) (hu : u.resolver = none) (conv : Field → Val → R Val) (v : Val) :
    u.resolve conv v = uResolve conv (uMembers u.given) v := by
  unfold UnionSpec.resolve; rw [hu]

/-- **C89, the deciding member.**  If all members before `m` decline the value with `ConversionError` and `m` does not, the outcome of the
conversion is that of `m`, be it a value or an exception; no later member matters. -/
theorem C89_decides (u : UnionSpec) (hu : u.resolver = none) (rec : Rec) (env : Env) (ctx : Ctx) (v : Val) (pre post : List UMember)
    (m : UMember) (hms : uMembers u.given = pre ++ m :: post) (hp : ∀ x ∈ pre, Declines (convertF rec env ctx) x v)
    (hm : ¬ Declines (convertF rec env ctx) m v) :
    u.convert rec env ctx v = convertF rec env ctx m.field v := by
  unfold UnionSpec.convert
  rw [resolve_none u hu, uResolve, hms, uFirst_pre pre _ hp]
  cases h : convertF rec env ctx m.field v with
  | ok w => rw [uFirst_hit h]
  | error e => rw [uFirst_raise h hm]

/-- **C89, no member.**  If all members decline, the union raises its own `ConversionError`, in conversion and in validation; conversion raises a
`ConversionError` only then. -/
theorem C89_declines_iff (u : UnionSpec) (hu : u.resolver = none) (rec : Rec) (env : Env) (ctx : Ctx) (v : Val) :
    (∃ msgs, u.convert rec env ctx v = .error (.field .conv msgs)) ↔ ∀ m ∈ uMembers u.given, Declines (convertF rec env ctx) m v := by
  constructor
  · rintro ⟨msgs, h⟩
    rcases first_or_none (convertF rec env ctx) v (uMembers u.given) with hall | ⟨pre, m, post, h1, h2, h3⟩
    · exact hall
    · rw [C89_decides u hu rec env ctx v pre post m h1 h2 h3] at h
      exact absurd ⟨msgs, h⟩ h3
  · intro h
    refine ⟨["convert"], ?_⟩
    unfold UnionSpec.convert
    rw [resolve_none u hu, uResolve]
    have := uFirst_pre (uMembers u.given) [] h
    rw [List.append_nil] at this
    rw [this]; rfl

/-- **C89, validation** hands the value, as it was given, to that same member. -/
theorem C89_validate (u : UnionSpec) (hu : u.resolver = none) (rec : Rec) (env : Env) (ctx : Ctx) (v w : Val) (pre post : List UMember)
    (m : UMember) (hms : uMembers u.given = pre ++ m :: post) (hp : ∀ x ∈ pre, Declines (convertF rec env ctx) x v)
    (hm : convertF rec env ctx m.field v = .ok w) :
    u.validate rec env ctx v = validateF rec env ctx m.field v := by
  unfold UnionSpec.validate
  rw [resolve_none u hu, uResolve, hms, uFirst_pre pre _ hp, uFirst_hit hm]

/-- **C89, validation fails** as conversion does: whatever exception conversion raises, validation raises it. -/
theorem C89_validate_error (u : UnionSpec) (rec : Rec) (env : Env) (ctx : Ctx) (v : Val) (e : Exc) (h : u.convert rec env ctx v = .error e) :
    u.validate rec env ctx v = .error e := by
  unfold UnionSpec.convert at h
  unfold UnionSpec.validate
  cases hr : u.resolve (convertF rec env ctx) v with
  | error e' => rw [hr] at h; cases h; rfl
  | ok r => rw [hr] at h; cases h

/-- **C89, export** is that of the first member that does not decline the *export-time* conversion. -/
theorem C89_export (u : UnionSpec) (hu : u.resolver = none) (erec : ERec) (env : Env) (ectx : ECtx) (v : Val) (pre post : List UMember)
    (m : UMember) (hms : uMembers u.given = pre ++ m :: post) (hp : ∀ x ∈ pre, Declines (exportConv erec env ectx) x v)
    (hm : ¬ Declines (exportConv erec env ectx) m v) :
    u.export erec env ectx v =
      match exportConv erec env ectx m.field v with
      | .ok _ => exportF erec env ectx DEFAULT m.field v
      | .error e => .error e := by
  unfold UnionSpec.export
  rw [resolve_none u hu, uResolve, hms, uFirst_pre pre _ hp]
  cases h : exportConv erec env ectx m.field v with
  | ok w => rw [uFirst_hit h]
  | error e => rw [uFirst_raise h hm]

/-! ## When compound members decline -/

/-- **C89, lists.**  A `ListType` member declines exactly the values which are not list-like: a bad *item* is no reason to try the next
member. -/
theorem C89_list_declines (rec : Rec) (env : Env) (ctx : Ctx) (cls : String) (inner : Field) (lo hi : Option Nat) (o : FieldOpts) (v : Val) :
    Declines (convertF rec env ctx) ⟨cls, .mk (.list inner lo hi) o⟩ v ↔ ¬ ListLike v := by
  unfold Declines convertF
  simp only [Field.ty_mk]
  cases hc : coerceList env v with
  | none =>
    refine ⟨fun _ => ?_, fun _ => ⟨_, rfl⟩⟩
    rintro (⟨xs, rfl⟩ | ⟨xs, rfl⟩ | ⟨xs, rfl⟩ | ⟨c, d, rfl⟩) <;> cases hc
  | some xs =>
    constructor
    · rintro ⟨msgs, h⟩
      exact absurd rfl (listConv_notField _ _ _ h .conv msgs)
    · intro h
      exfalso
      apply h
      cases v with
      | list xs => exact Or.inl ⟨_, rfl⟩
      | tuple xs => exact Or.inr (Or.inl ⟨_, rfl⟩)
      | bytes bs => exact Or.inr (Or.inr (Or.inl ⟨_, rfl⟩))
      | inst c d => exact Or.inr (Or.inr (Or.inr ⟨_, _, rfl⟩))
      | _ => cases hc

/-- **C89, dicts.**  A `DictType` member declines exactly the values which are not mappings. -/
theorem C89_dict_declines (rec : Rec) (env : Env) (ctx : Ctx) (cls : String) (inner : Field) (co : Key → R Key) (o : FieldOpts) (v : Val) :
    Declines (convertF rec env ctx) ⟨cls, .mk (.dict inner co) o⟩ v ↔ ¬ ∃ d, v = .dict d := by
  unfold Declines convertF
  simp only [Field.ty_mk]
  cases v with
  | dict d =>
    constructor
    · rintro ⟨msgs, h⟩
      exact absurd rfl (dictConv_notField _ _ _ _ h .conv msgs)
    · intro h; exact absurd ⟨d, rfl⟩ h
  | _ => exact ⟨fun _ ⟨d, h⟩ => (by cases h), fun _ => ⟨_, rfl⟩⟩

/-- **C89, models.**  A `ModelType` member declines exactly the values which are neither mappings nor instances of its model: a mapping that does
not fit the model is no reason to try the next member. -/
theorem C89_model_declines (rec : Rec) (env : Env) (ctx : Ctx) (cls k : String) (o : FieldOpts) (v : Val) :
    Declines (convertF rec env ctx) ⟨cls, .mk (.model k) o⟩ v ↔
      (¬ ∃ d, v = .dict d) ∧ ¬ ∃ c d, v = .inst c d ∧ env.isSub c k = true := by
  unfold Declines convertF
  simp only [Field.ty_mk]
  cases v with
  | dict d =>
    constructor
    · rintro ⟨msgs, h⟩
      rw [modelConv] at h
      split at h
      · exact absurd rfl (modelInto_notField _ _ _ _ _ _ _ h .conv msgs)
      · cases h
    · intro h; exact absurd ⟨d, rfl⟩ h.1
  | inst c d =>
    by_cases hs : env.isSub c k = true
    · constructor
      · rintro ⟨msgs, h⟩
        rw [modelConv, if_pos hs] at h
        split at h
        · exact absurd rfl (modelInto_notField _ _ _ _ _ _ _ h .conv msgs)
        · cases h
      · intro h; exact absurd ⟨c, d, rfl, hs⟩ h.2
    · constructor
      · intro _
        refine ⟨fun ⟨d, h⟩ => (by cases h), ?_⟩
        rintro ⟨c', d', h, hs'⟩
        cases h
        exact hs hs'
      · intro _
        refine ⟨["model"], ?_⟩
        rw [modelConv, if_neg hs]; rfl
  | _ =>
    constructor
    · intro _
      exact ⟨fun ⟨d, h⟩ => (by cases h), fun ⟨c, d, h, _⟩ => (by cases h)⟩
    · intro _; exact ⟨_, rfl⟩

/-- **C89, polymorphic models.**  A `PolyModelType` member declines exactly those values that are neither mappings nor instances of an allowed
class, and never while validating. -/
theorem C89_poly_declines (rec : Rec) (env : Env) (ctx : Ctx) (cls : String) (p : PolySpec) (o : FieldOpts) (v : Val) :
    Declines (convertF rec env ctx) ⟨cls, .mk (.poly p) o⟩ v ↔
      ctx.validate = false ∧ (¬ ∃ d, v = .dict d) ∧ p.allowed env v = false := by
  unfold Declines convertF
  simp only [Field.ty_mk]
  have hd : v.isDict = true ↔ ∃ d, v = .dict d := by
    cases v with
    | dict d => exact ⟨fun _ => ⟨d, rfl⟩, fun _ => rfl⟩
    | _ => exact ⟨fun h => (by cases h), fun ⟨d, h⟩ => (by cases h)⟩
  rw [polyConv]
  cases hv : ctx.validate with
  | false =>
    cases ha : p.allowed env v with
    | true => simp
    | false =>
      cases hdd : v.isDict with
      | false =>
        simp only [Bool.not_false, Bool.and_false, Bool.false_eq_true, if_false, Bool.and_self, if_true]
        rw [← hd, hdd]
        simp [convErr]
      | true =>
        simp only [Bool.not_false, Bool.and_false, Bool.false_eq_true, if_false, Bool.not_true]
        obtain ⟨d, rfl⟩ := hd.1 hdd
        constructor
        · rintro ⟨msgs, h⟩
          exfalso
          cases hf : p.findModel env (.dict d) with
          | error e =>
            rw [hf] at h
            cases h
            exact absurd hf (by
              unfold PolySpec.findModel
              cases p.claim with
              | some f => simp only; cases f (.dict d) <;> simp
              | none => simp only; split <;> simp)
          | ok k =>
            rw [hf] at h
            simp only at h
            cases hk : env.cls k with
            | none => rw [hk] at h; cases h
            | some c =>
              rw [hk] at h
              exact absurd rfl (newInstance_notField _ _ _ _ _ _ h .conv msgs)
        · rintro ⟨_, h, _⟩; exact absurd ⟨d, rfl⟩ h
  | true =>
    simp only [Bool.not_true, Bool.false_and, Bool.false_eq_true, if_false, Bool.true_eq_false, false_and, iff_false]
    rintro ⟨msgs, h⟩
    cases hf : p.findModel env v with
    | error e =>
      rw [hf] at h
      cases h
      exact absurd hf (by
        unfold PolySpec.findModel
        cases p.claim with
        | some f => simp only; cases f v <;> simp
        | none => simp only; split <;> simp)
    | ok k =>
      rw [hf] at h
      simp only at h
      cases hk : env.cls k with
      | none => rw [hk] at h; cases h
      | some c =>
        rw [hk] at h
        cases v with
        | dict d => exact absurd rfl (newInstance_notField _ _ _ _ _ _ h .conv msgs)
        | inst k' d => exact absurd rfl (newInstance_notField _ _ _ _ _ _ h .conv msgs)
        | _ =>
          simp only at h
          split at h
          · cases h
          · exact absurd rfl (newInstance_notField _ _ _ _ _ _ h .conv msgs)

/-! ## Consequences -/

/-- **C89, mappings are not tried twice.**  If the first member that is a `DictType` or a `ModelType` comes after members that decline mappings, a
mapping is converted by it or refused by it: the union's own `ConversionError` is never raised. -/
theorem C89_mapping_committed (u : UnionSpec) (hu : u.resolver = none) (rec : Rec) (env : Env) (ctx : Ctx) (d : Data)
    (pre post : List UMember) (m : UMember) (hms : uMembers u.given = pre ++ m :: post)
    (hp : ∀ x ∈ pre, Declines (convertF rec env ctx) x (.dict d))
    (hm : (∃ inner co, m.field.ty = .dict inner co) ∨ ∃ k, m.field.ty = .model k) :
    u.convert rec env ctx (.dict d) = convertF rec env ctx m.field (.dict d) := by
  refine C89_decides u hu rec env ctx _ pre post m hms hp ?_
  obtain ⟨cls, ⟨ty, o⟩⟩ := m
  rcases hm with ⟨inner, co, h⟩ | ⟨k, h⟩
  · rw [Field.ty_mk] at h
    subst h
    rw [C89_dict_declines]
    exact fun h => h ⟨d, rfl⟩
  · rw [Field.ty_mk] at h
    subst h
    rw [C89_model_declines]
    exact fun h => h.1 ⟨d, rfl⟩

/-- **C89, lists are not tried twice.**  Likewise a list goes to the first `ListType`, if the members before it decline lists. -/
theorem C89_list_committed (u : UnionSpec) (hu : u.resolver = none) (rec : Rec) (env : Env) (ctx : Ctx) (xs : List Val)
    (pre post : List UMember) (m : UMember) (hms : uMembers u.given = pre ++ m :: post)
    (hp : ∀ x ∈ pre, Declines (convertF rec env ctx) x (.list xs)) (hm : ∃ inner lo hi, m.field.ty = .list inner lo hi) :
    u.convert rec env ctx (.list xs) = convertF rec env ctx m.field (.list xs) := by
  refine C89_decides u hu rec env ctx _ pre post m hms hp ?_
  obtain ⟨cls, ⟨ty, o⟩⟩ := m
  obtain ⟨inner, lo, hi, h⟩ := hm
  rw [Field.ty_mk] at h
  subst h
  rw [C89_list_declines]
  exact fun h => h (Or.inl ⟨xs, rfl⟩)

/-- **C89, model members cannot be exported.**  Whenever the first member not declining is a `ModelType` of a known model, exporting an instance of
that model or a mapping raises `AttributeError`, whatever the members, the format, the role and the value. -/
theorem C89_model_export_fails (u : UnionSpec) (hu : u.resolver = none) (erec : ERec) (env : Env) (ectx : ECtx) (k : String) (v : Val)
    (pre post : List UMember) (m : UMember) (hms : uMembers u.given = pre ++ m :: post)
    (hp : ∀ x ∈ pre, Declines (exportConv erec env ectx) x v) (hm : m.field.ty = .model k)
    (hv : (∃ d, v = .dict d) ∨ ∃ c d, v = .inst c d ∧ env.isSub c k = true) (hk : (env.cls k).isSome = true) :
    u.export erec env ectx v = .error (.other "AttributeError") := by
  have h : exportConv erec env ectx m.field v = .error (.other "AttributeError") := by
    unfold exportConv
    rw [hm]
    simp only
    cases hc : env.cls k with
    | none => rw [hc] at hk; cases hk
    | some x =>
      rcases hv with ⟨d, rfl⟩ | ⟨c, d, rfl, hs⟩
      · rfl
      · simp only; rw [if_pos hs]
  rw [C89_export u hu erec env ectx _ pre post m hms hp (by rintro ⟨ms, h'⟩; rw [h] at h'; cases h'), h]

theorem listLoop_caught (f : Val → R Val) : ∀ (xs : List Val) (i : Nat), (∀ x ∈ xs, ∀ e, f x = .error e → e.caught = true) →
    ∃ ys es, listLoop f i xs = .ok (ys, es) ∧ ((∃ x ∈ xs, ∃ e, f x = .error e) → es.isEmpty = false)
  | [], i, _ => ⟨[], [], rfl, by rintro ⟨x, h, _⟩; cases h⟩
  | x :: xs, i, h => by
    obtain ⟨ys, es, h1, h2⟩ := listLoop_caught f xs (i + 1) fun y hy => h y (List.mem_cons_of_mem _ hy)
    unfold listLoop
    cases hx : f x with
    | ok y =>
      simp only
      rw [h1]
      refine ⟨_, _, rfl, ?_⟩
      rintro ⟨z, hz, e, he⟩
      rcases List.mem_cons.1 hz with rfl | hz
      · rw [hx] at he; cases he
      · exact h2 ⟨z, hz, e, he⟩
    | error e =>
      simp only
      rw [if_pos (h x (List.mem_cons_self ..) e hx), h1]
      exact ⟨_, _, rfl, fun _ => rfl⟩

/-- **C89, lists are exported item by item when the member is looked for.**  If the first member not declining is a `ListType` and some items cannot be exported,
the export of the list raises one `CompoundError` for them (a list outside a union lets the first error of an item pass through). -/
theorem C89_list_export_error (u : UnionSpec) (hu : u.resolver = none) (erec : ERec) (env : Env) (ectx : ECtx) (xs : List Val)
    (inner : Field) (lo hi : Option Nat) (pre post : List UMember) (m : UMember) (hms : uMembers u.given = pre ++ m :: post)
    (hp : ∀ x ∈ pre, Declines (exportConv erec env ectx) x (.list xs)) (hm : m.field.ty = .list inner lo hi)
    (hc : ∀ x ∈ xs, ∀ e, erec DEFAULT inner x = .error e → e.caught = true) (x : Val) (hx : x ∈ xs) (e : Exc) (he : erec DEFAULT inner x = .error e) :
    ∃ es, u.export erec env ectx (.list xs) = .error (.compound es) := by
  obtain ⟨ys, es, h1, h2⟩ := listLoop_caught (erec DEFAULT inner) xs 0 hc
  have h : exportConv erec env ectx m.field (.list xs) = .error (.compound es) := by
    unfold exportConv
    rw [hm]
    show listConv (erec DEFAULT inner) xs = _
    unfold listConv
    rw [h1]
    show (if es.isEmpty = true then _ else _) = _
    rw [h2 ⟨x, hx, e, he⟩]
    rfl
  exact ⟨es, by rw [C89_export u hu erec env ectx _ pre post m hms hp (by rintro ⟨ms, h'⟩; rw [h] at h'; cases h'), h]⟩

/-- **C89, resolver.**  A resolver that names a class uses that member alone; its `ConversionError` becomes the union's; a class which is not a member is a
`KeyError`. -/
theorem C89_resolver (u : UnionSpec) (f : Val → Response) (hu : u.resolver = some f) (rec : Rec) (env : Env) (ctx : Ctx) (v : Val) (c : String)
    (hf : f v = .cls c) :
    (∀ m w, LastOf u.given c = some m → convertF rec env ctx m.field v = .ok w → u.convert rec env ctx v = .ok w) ∧
    (∀ m e, LastOf u.given c = some m → convertF rec env ctx m.field v = .error e →
      u.convert rec env ctx v = .error e ∨ (Declines (convertF rec env ctx) m v ∧ u.convert rec env ctx v = convErr "convert")) ∧
    (c ∉ u.given.map UMember.cls → u.convert rec env ctx v = .error (.other "KeyError")) := by
  have hfind : (uMembers u.given).find? (fun m => m.cls == c) = LastOf u.given c := by
    rw [C89_members]
    by_cases hc : c ∈ u.given.map UMember.cls
    · have hc' := (mem_distinct c _).2 hc
      obtain ⟨m, hm⟩ : ∃ m, LastOf u.given c = some m := by
        have := ((C89_one_per_class u.given).2.2 c).1 hc
        obtain ⟨m, hm, rfl⟩ := this
        rw [C89_members, List.mem_filterMap] at hm
        obtain ⟨c', _, hm⟩ := hm
        exact ⟨m, by rw [(lastOf_cls hm).1]; exact hm⟩
      rw [hm]
      clear hc
      generalize Distinct (u.given.map UMember.cls) = l at hc'
      induction l with
      | nil => cases hc'
      | cons a l ih =>
        rw [List.filterMap_cons]
        by_cases ha : a = c
        · subst ha
          rw [hm]
          simp only
          rw [List.find?_cons_of_pos (by simp [(lastOf_cls hm).1])]
        · have hl := (List.mem_cons.1 hc').resolve_left (Ne.symm ha)
          cases hla : LastOf u.given a with
          | none => exact ih hl
          | some x =>
            simp only
            rw [List.find?_cons_of_neg (by simp [(lastOf_cls hla).1, ha])]
            exact ih hl
    · have : LastOf u.given c = none := by
        cases h : LastOf u.given c with
        | none => rfl
        | some m => exact absurd (List.mem_map.2 ⟨m, (lastOf_cls h).2, (lastOf_cls h).1⟩) hc
      rw [this, List.find?_eq_none]
      intro m hm
      rw [List.mem_filterMap] at hm
      obtain ⟨c', hc', hm⟩ := hm
      rw [mem_distinct] at hc'
      have hcc := (lastOf_cls hm).1
      simp only [beq_iff_eq]
      intro hcm
      exact hc (by rw [← hcm, hcc]; exact hc')
  unfold UnionSpec.convert UnionSpec.resolve
  rw [hu]
  simp only
  rw [hf, uResolveBy, hfind]
  refine ⟨?_, ?_, ?_⟩
  · intro m w hm hw
    rw [hm]; simp only; rw [hw]
  · intro m e hm he
    rw [hm]
    simp only
    rw [he]
    match e, he with
    | .field .conv ms', he => exact Or.inr ⟨⟨ms', he⟩, rfl⟩
    | .field .valid _, _ => exact Or.inl rfl
    | .field .stop _, _ => exact Or.inl rfl
    | .compound _, _ => exact Or.inl rfl
    | .data _ _, _ => exact Or.inl rfl
    | .other _, _ => exact Or.inl rfl
    | .fuel, _ => exact Or.inl rfl
  · intro hc
    cases h : LastOf u.given c with
    | none => rfl
    | some m => exact absurd (List.mem_map.2 ⟨m, (lastOf_cls h).2, (lastOf_cls h).1⟩) hc

/-! ## What fails, and the hypotheses are met -/

open Verif.Samples

/-- `ModelType(Item)` as a member -/
def mItem : UMember := ⟨"ModelType", .mk (.model "Item") {}⟩
/-- `ModelType(Order)` as a member -/
def mOrder : UMember := ⟨"ModelType", .mk (.model "Order") {}⟩
/-- `ListType(IntType)` as a member -/
def mInts : UMember := ⟨"ListType", .mk (.list intF none none) {}⟩
/-- `ListType(StringType)` as a member -/
def mStrs : UMember := ⟨"ListType", .mk (.list (.mk (.leaf strLeaf) {}) none none) {}⟩
/-- `StringType()` as a member -/
def mText : UMember := ⟨"StringType", .mk (.leaf strLeaf) {}⟩
/-- `ListType(ModelType(Item))` as a member -/
def mItems : UMember := ⟨"ListType", .mk (.list (.mk (.model "Item") {}) none none) {}⟩

/-- **C89, what fails: a union of two models.**  `UnionType([ModelType(Item), StringType(), ModelType(Order)])` does not accept an item: the only
`ModelType` left is that of `Order`, and its `DataError` ends the search. -/
theorem C89_counterexample_two_models :
    uMembers [mItem, mText, mOrder] = [mOrder, mText] ∧
    ∃ es p, (UnionSpec.mk [mItem, mText, mOrder] none).convert (fieldConv env 4) env ictx (.dict [(.str "qty", .int 1)]) =
      .error (.data es p) := ⟨rfl, _, _, rfl⟩

/-- **C89, what fails: two item types.**  `UnionType([ListType(IntType), StringType(), ListType(StringType)])` is a union of texts and lists of
texts. -/
theorem C89_counterexample_two_lists : uMembers [mInts, mText, mStrs] = [mStrs, mText] := rfl

/-- **C89, what fails: import and export disagree.**  `UnionType([ModelType(Item), StringType()])` imports an item and cannot export it; a list of
items can be exported. -/
theorem C89_counterexample_export :
    (UnionSpec.mk [mItem, mText] none).convert (fieldConv env 4) env ictx (.dict [(.str "qty", .int 1)]) =
      .ok (.inst "Item" [(.str "qty", .int 1), (.str "tag", .none)]) ∧
    (UnionSpec.mk [mItem, mText] none).export (fieldExport env {} 4) env {} (.inst "Item" [(.str "qty", .int 1), (.str "tag", .none)]) =
      .error (.other "AttributeError") ∧
    (UnionSpec.mk [mItems, mText] none).export (fieldExport env {} 4) env {} (.list [.inst "Item" [(.str "qty", .int 1), (.str "tag", .none)]]) =
      .ok (.list [.dict [(.str "qty", .int 1), (.str "label", .none)]]) := ⟨rfl, rfl, rfl⟩

/-- A union of texts, lists of ints and items decides by the first member that does not decline. -/
example : ∃ pre m post, uMembers [mText, mInts, mItem] = pre ++ m :: post ∧
    (∀ x ∈ pre, Declines (convertF (fieldConv env 4) env ictx) x (.list [.int 1, .str "x"])) ∧
    ¬ Declines (convertF (fieldConv env 4) env ictx) m (.list [.int 1, .str "x"]) ∧ pre ≠ [] ∧ post ≠ [] := by
  refine ⟨[mText], mInts, [mItem], rfl, ?_, ?_, by simp, by simp⟩
  · intro x hx
    rw [List.mem_singleton] at hx; subst hx
    exact ⟨_, rfl⟩
  · unfold mInts
    rw [C89_list_declines]
    exact fun h => h (Or.inl ⟨_, rfl⟩)

/-- All decline. -/
example : ∀ m ∈ uMembers [mText, mInts, mItem], Declines (convertF (fieldConv env 4) env ictx) m (.bool true) := by
  intro m hm
  have : uMembers [mText, mInts, mItem] = [mText, mInts, mItem] := rfl
  rw [this] at hm
  simp only [List.mem_cons, List.not_mem_nil, or_false] at hm
  rcases hm with rfl | rfl | rfl <;> exact ⟨_, rfl⟩

/-- The hypotheses of `C89_model_export_fails`. -/
example : (∀ x ∈ [mText], Declines (exportConv (fieldExport env {} 4) env {}) x (.inst "Item" [])) ∧
    uMembers [mText, mItem] = [mText] ++ mItem :: [] ∧ env.isSub "Item" "Item" = true ∧ (env.cls "Item").isSome = true := by
  refine ⟨?_, rfl, rfl, rfl⟩
  intro x hx
  rw [List.mem_singleton] at hx; subst hx
  exact ⟨_, rfl⟩

/-- The hypotheses of `C89_list_export_error`: an element type that exports numbers only. -/
example : ∃ es, (UnionSpec.mk [mText, mInts] none).export
    (fun _ _ v => match v with | .int i => .ok (.int i) | _ => convErr "int") env {} (.list [.int 1, .str "x"]) = .error (.compound es) := by
  refine C89_list_export_error _ rfl _ env {} _ _ _ _ [mText] [] mInts rfl ?_ rfl ?_ (.str "x") (by simp) _ rfl
  · intro x hx
    rw [List.mem_singleton] at hx; subst hx
    exact ⟨_, rfl⟩
  · intro x hx e he
    simp only [List.mem_cons, List.not_mem_nil, or_false] at hx
    rcases hx with rfl | rfl
    · cases he
    · cases he; rfl

end Verif.Types
