import Verif.Lib.FreshLemmas

/-!
# C93, C94: converted and exported values are made of new containers

The specification is in `Lib/FreshLemmas`: `Mutable`, `At` (what is reachable), `view` (what an object looks like) and, on the side of the schema, `Strict`/`StrictOut`
(no leaf type hands back a mutable object).
-/
namespace Verif.Fresh
open Verif

/-! ## The input -/

/-- **C93.** Converting a value changes no object: not the input, not what is inside it, not a default, whether it succeeds or fails, for every schema. -/
theorem C93_nothing_changed (env : Env) (c : Ctx) (n : Nat) (t : Ty) (h : Heap) (a : Nat) (hc : Closed h) (henv : env.Ok h) (ha : a < h.length) :
    ∀ x, x < h.length → (conv env c n t h a).1[x]? = h[x]? ∧ ∀ m, view m (conv env c n t h a).1 x = view m h x := by
  have g := good_conv env c h henv False (fun h => h.elim) n t h a (ext_self h) hc ha
  obtain ⟨new, hn⟩ := g.ext
  intro x hx
  have key : ∀ y, y < h.length → (conv env c n t h a).1[y]? = h[y]? := fun y hy => by rw [hn, List.getElem?_append_left hy]
  exact ⟨key x hx, fun m => view_old hc key m hx⟩

/-! ## The result -/

/-- One comes only to existing objects from existing objects. -/
theorem at_old {h h' : Heap} (hc : Closed h) (hs : ∀ a, a < h.length → h'[a]? = h[a]?) {y x : Nat} {p : List Nat} (hat : At h' y p x) : y < h.length → x < h.length := by
  induction hat with
  | here => exact id
  | down ho hk _ ih =>
    intro hy
    rw [hs _ hy] at ho
    exact ih (hc _ (List.mem_of_getElem? ho) _ (List.mem_of_getElem? hk))

/-- **C93.** If no leaf type of the schema hands back a mutable object, then every list, dict and instance in the converted value is new: none of them is reachable from
anything that existed before — not from the input, not from a default, not from an earlier result. -/
theorem C93_new (env : Env) (c : Ctx) (n : Nat) (t : Ty) (h : Heap) (a : Nat) (hc : Closed h) (henv : env.Ok h) (ha : a < h.length)
    (hs : env.Strict c) (ht : t.Strict c) {h' : Heap} {r : Nat} (hr : conv env c n t h a = (h', .ok r)) :
    ∀ x, Mutable h' x → ∀ p, At h' r p x → ∀ y, y < h.length → ∀ q, ¬ At h' y q x := by
  have g := good_conv env c h henv True (fun _ => hs) n t h a (ext_self h) hc ha
  rw [hr] at g
  obtain ⟨new, hn⟩ := g.ext
  obtain ⟨L, hL, -, hlo⟩ := (g.ok r rfl).2 ⟨trivial, ht⟩
  intro x hm p hp y hy q hq
  have h1 : h.length ≤ x := hlo x (hL.at hp hm)
  have h2 : x < h.length := at_old hc (fun z hz => by
    have hn' : h' = h ++ new := hn
    rw [hn', List.getElem?_append_left hz]) hq hy
  exact absurd h2 (Nat.not_lt.2 h1)

/-- **C93.** Inside the converted value no list, dict or instance occurs twice, even if the input has the same object in several places. -/
theorem C93_no_alias (env : Env) (c : Ctx) (n : Nat) (t : Ty) (h : Heap) (a : Nat) (hc : Closed h) (henv : env.Ok h) (ha : a < h.length)
    (hs : env.Strict c) (ht : t.Strict c) {h' : Heap} {r : Nat} (hr : conv env c n t h a = (h', .ok r)) :
    ∀ x, Mutable h' x → ∀ p q, At h' r p x → At h' r q x → p = q := by
  have g := good_conv env c h henv True (fun _ => hs) n t h a (ext_self h) hc ha
  rw [hr] at g
  obtain ⟨L, hL, hn, -⟩ := (g.ok r rfl).2 ⟨trivial, ht⟩
  exact fun x hm p q hp hq => hL.unique hn hp hq hm

/-! ## What the program does afterwards -/

/-- A step of the program that uses the library: it converts or exports something, makes a new object, or changes an object in place. -/
inductive Act
  | conv (c : Ctx) (n : Nat) (t : Ty) (a : Nat)
  | exp (lvl n : Nat) (t : Ty) (a : Nat)
  | new (o : Obj)
  | write (a : Nat) (o : Obj)

/-- The heap after the step. -/
def Act.step (env : Env) (h : Heap) : Act → Heap
  | .conv c n t a => (Fresh.conv env c n t h a).1
  | .exp lvl n t a => (expo env lvl n t h a).1
  | .new o => h ++ [o]
  | .write a o => h.set a o

/-- The step uses objects that exist; it changes nothing that is reachable from `r`. -/
def Act.Away (r : Nat) (h : Heap) : Act → Prop
  | .conv _ _ _ a => a < h.length
  | .exp _ _ _ a => a < h.length
  | .new o => ∀ k ∈ o.kids, k < h.length
  | .write a o => Mutable h a ∧ (∀ k ∈ o.kids, k < h.length) ∧ ∀ p, ¬ At h r p a

/-- Every step of the program is like this. -/
def AllAway (env : Env) (r : Nat) : Heap → List Act → Prop
  | _, [] => True
  | h, s :: ss => s.Away r h ∧ AllAway env r (s.step env h) ss

theorem Owns.reached {h : Heap} {r : Nat} {L : List Nat} (o : Owns h r L) : ∀ x ∈ L, ∃ p, At h r p x := by
  induction o with
  | atom _ => intro x hx; simp at hx
  | node ho hm G hk hG ih =>
    intro x hx
    simp only [List.mem_cons, List.mem_flatten, List.mem_map] at hx
    rcases hx with rfl | ⟨l, ⟨e, he, rfl⟩, hxl⟩
    · exact ⟨[], .here _⟩
    · obtain ⟨p, hp⟩ := ih e he x hxl
      obtain ⟨i, hi⟩ := List.mem_iff_getElem?.1 he
      exact ⟨i :: p, .down ho (by rw [hk, List.getElem?_map, hi]; rfl) hp⟩

theorem closed_set {h : Heap} (hc : Closed h) (a : Nat) {o : Obj} (ho : ∀ k ∈ o.kids, k < h.length) : Closed (h.set a o) := by
  intro x hx k hk
  rw [List.length_set]
  rcases List.mem_or_eq_of_mem_set hx with hx | rfl
  · exact hc x hx k hk
  · exact ho k hk

theorem env_ok_mono {env : Env} {h h' : Heap} (henv : env.Ok h) (hl : h.length ≤ h'.length) : env.Ok h' := by
  intro cls fds hf fd hfd
  have := henv cls fds hf fd hfd
  cases hd : fd.dflt with
  | none => trivial
  | obj a => rw [hd] at this; exact Nat.lt_of_lt_of_le this hl
  | call o => rw [hd] at this; exact fun k hk => Nat.lt_of_lt_of_le (this k hk) hl

theorem owns_history (env : Env) (r : Nat) (L : List Nat) : ∀ (ss : List Act) (h : Heap), Closed h → env.Ok h → Owns h r L → AllAway env r h ss →
    ∀ m, view m (ss.foldl (Act.step env) h) r = view m h r
  | [], _, _, _, _, _, _ => rfl
  | s :: ss, h, hc, henv, ho, ⟨hs, hss⟩, m => by
    have key : Closed (s.step env h) ∧ env.Ok (s.step env h) ∧ Owns (s.step env h) r L ∧ ∀ m, view m (s.step env h) r = view m h r := by
      cases s with
      | conv c n t a =>
        have g := good_conv env c h henv False (fun h => h.elim) n t h a (ext_self h) hc hs
        obtain ⟨new, hn⟩ := g.ext
        have hc' := g.closed
        show Closed (Fresh.conv env c n t h a).1 ∧ env.Ok (Fresh.conv env c n t h a).1 ∧ Owns (Fresh.conv env c n t h a).1 r L ∧ ∀ m, view m (Fresh.conv env c n t h a).1 r = view m h r
        rw [hn] at hc' ⊢
        exact ⟨hc', env_ok_mono henv (by simp), ho.ext new, fun m => ho.view_ext new m⟩
      | exp lvl n t a =>
        have g := good_expo env lvl h False (fun h => h.elim) n t h a (ext_self h) hc hs
        obtain ⟨new, hn⟩ := g.ext
        have hc' := g.closed
        show Closed (expo env lvl n t h a).1 ∧ env.Ok (expo env lvl n t h a).1 ∧ Owns (expo env lvl n t h a).1 r L ∧ ∀ m, view m (expo env lvl n t h a).1 r = view m h r
        rw [hn] at hc' ⊢
        exact ⟨hc', env_ok_mono henv (by simp), ho.ext new, fun m => ho.view_ext new m⟩
      | new o => exact ⟨closed_add hc hs, env_ok_mono henv (by simp [Act.step]), ho.ext [o], fun m => ho.view_ext [o] m⟩
      | write a o =>
        obtain ⟨hm, hk, hp⟩ := hs
        have ha : a ∉ L := fun hin => by
          obtain ⟨p, hat⟩ := ho.reached a hin
          exact hp p hat
        exact ⟨closed_set hc a hk, env_ok_mono henv (by simp [Act.step]), ho.set hm ha o, fun m => ho.view_set hm ha o m⟩
    rw [List.foldl_cons, owns_history env r L ss (s.step env h) key.1 key.2.1 key.2.2.1 hss m, key.2.2.2 m]

/-- **C93.** Whatever the program does afterwards — converting and exporting other values, making objects, changing in place any object that is not part of the converted
value: the input, the defaults, other results — the converted value stays what it was. -/
theorem C93_stays (env : Env) (c : Ctx) (n : Nat) (t : Ty) (h : Heap) (a : Nat) (hc : Closed h) (henv : env.Ok h) (ha : a < h.length)
    (hs : env.Strict c) (ht : t.Strict c) {h' : Heap} {r : Nat} (hr : conv env c n t h a = (h', .ok r)) (ss : List Act) (hss : AllAway env r h' ss) :
    ∀ m, view m (ss.foldl (Act.step env) h') r = view m h' r := by
  have g := good_conv env c h henv True (fun _ => hs) n t h a (ext_self h) hc ha
  rw [hr] at g
  obtain ⟨L, hL, -, -⟩ := (g.ok r rfl).2 ⟨trivial, ht⟩
  exact owns_history env r L ss h' g.closed (env_ok_mono henv (len_le g.ext)) hL hss

/-- **C93.** The other way round: changing a list, dict or instance of the converted value changes nothing that existed before the conversion. -/
theorem C93_own_change (env : Env) (c : Ctx) (n : Nat) (t : Ty) (h : Heap) (a : Nat) (hc : Closed h) (henv : env.Ok h) (ha : a < h.length)
    (hs : env.Strict c) (ht : t.Strict c) {h' : Heap} {r : Nat} (hr : conv env c n t h a = (h', .ok r)) {x : Nat} {p : List Nat} (hx : At h' r p x) (hm : Mutable h' x)
    (o : Obj) : ∀ y, y < h.length → ∀ m, view m (h'.set x o) y = view m h y := by
  have g := good_conv env c h henv True (fun _ => hs) n t h a (ext_self h) hc ha
  rw [hr] at g
  obtain ⟨new, hn⟩ := g.ext
  obtain ⟨L, hL, -, hlo⟩ := (g.ok r rfl).2 ⟨trivial, ht⟩
  intro y hy m
  refine view_old hc (fun z hz => ?_) m hy
  have : h.length ≤ x := hlo x (hL.at hx hm)
  have hn' : h' = h ++ new := hn
  rw [List.getElem?_set_ne (by omega), hn', List.getElem?_append_left hz]

/-! ## Export -/

/-- **C94.** Exporting changes no object. -/
theorem C94_nothing_changed (env : Env) (lvl n : Nat) (t : Ty) (h : Heap) (a : Nat) (hc : Closed h) (ha : a < h.length) :
    ∀ x, x < h.length → (expo env lvl n t h a).1[x]? = h[x]? ∧ ∀ m, view m (expo env lvl n t h a).1 x = view m h x := by
  have g := good_expo env lvl h False (fun h => h.elim) n t h a (ext_self h) hc ha
  obtain ⟨new, hn⟩ := g.ext
  intro x hx
  have key : ∀ y, y < h.length → (expo env lvl n t h a).1[y]? = h[y]? := fun y hy => by rw [hn, List.getElem?_append_left hy]
  exact ⟨key x hx, fun m => view_old hc key m hx⟩

/-- **C94.** If exporting a leaf value hands back no mutable object, every list and dict in the exported value is new: none is reachable from the instance or anything
else that existed before. -/
theorem C94_new (env : Env) (lvl n : Nat) (t : Ty) (h : Heap) (a : Nat) (hc : Closed h) (ha : a < h.length)
    (hs : env.StrictOut) (ht : t.StrictOut) {h' : Heap} {r : Nat} (hr : expo env lvl n t h a = (h', .ok r)) :
    ∀ x, Mutable h' x → ∀ p, At h' r p x → ∀ y, y < h.length → ∀ q, ¬ At h' y q x := by
  have g := good_expo env lvl h True (fun _ => hs) n t h a (ext_self h) hc ha
  rw [hr] at g
  obtain ⟨new, hn⟩ := g.ext
  obtain ⟨L, hL, -, hlo⟩ := (g.ok r rfl).2 ⟨trivial, ht⟩
  intro x hm p hp y hy q hq
  have h1 : h.length ≤ x := hlo x (hL.at hp hm)
  have h2 : x < h.length := at_old hc (fun z hz => by
    have hn' : h' = h ++ new := hn
    rw [hn', List.getElem?_append_left hz]) hq hy
  exact absurd h2 (Nat.not_lt.2 h1)

/-- **C94.** No list or dict occurs twice in the exported value. -/
theorem C94_no_alias (env : Env) (lvl n : Nat) (t : Ty) (h : Heap) (a : Nat) (hc : Closed h) (ha : a < h.length)
    (hs : env.StrictOut) (ht : t.StrictOut) {h' : Heap} {r : Nat} (hr : expo env lvl n t h a = (h', .ok r)) :
    ∀ x, Mutable h' x → ∀ p q, At h' r p x → At h' r q x → p = q := by
  have g := good_expo env lvl h True (fun _ => hs) n t h a (ext_self h) hc ha
  rw [hr] at g
  obtain ⟨L, hL, hn, -⟩ := (g.ok r rfl).2 ⟨trivial, ht⟩
  exact fun x hm p q hp hq => hL.unique hn hp hq hm

/-- **C94.** The exported value is a snapshot: it stays what it was, whatever happens to the instance afterwards. -/
theorem C94_snapshot (env : Env) (lvl n : Nat) (t : Ty) (h : Heap) (a : Nat) (hc : Closed h) (henv : env.Ok h) (ha : a < h.length)
    (hs : env.StrictOut) (ht : t.StrictOut) {h' : Heap} {r : Nat} (hr : expo env lvl n t h a = (h', .ok r)) (ss : List Act) (hss : AllAway env r h' ss) :
    ∀ m, view m (ss.foldl (Act.step env) h') r = view m h' r := by
  have g := good_expo env lvl h True (fun _ => hs) n t h a (ext_self h) hc ha
  rw [hr] at g
  obtain ⟨L, hL, -, -⟩ := (g.ok r rfl).2 ⟨trivial, ht⟩
  exact owns_history env r L ss h' g.closed (env_ok_mono henv (len_le g.ext)) hL hss

/-- **C94.** Changing the exported value in place changes neither the instance nor anything else that existed before. -/
theorem C94_own_change (env : Env) (lvl n : Nat) (t : Ty) (h : Heap) (a : Nat) (hc : Closed h) (ha : a < h.length)
    (hs : env.StrictOut) (ht : t.StrictOut) {h' : Heap} {r : Nat} (hr : expo env lvl n t h a = (h', .ok r)) {x : Nat} {p : List Nat} (hx : At h' r p x) (hm : Mutable h' x)
    (o : Obj) : ∀ y, y < h.length → ∀ m, view m (h'.set x o) y = view m h y := by
  have g := good_expo env lvl h True (fun _ => hs) n t h a (ext_self h) hc ha
  rw [hr] at g
  obtain ⟨new, hn⟩ := g.ext
  obtain ⟨L, hL, -, hlo⟩ := (g.ok r rfl).2 ⟨trivial, ht⟩
  intro y hy m
  refine view_old hc (fun z hz => ?_) m hy
  have : h.length ≤ x := hlo x (hL.at hx hm)
  have hn' : h' = h ++ new := hn
  rw [List.getElem?_set_ne (by omega), hn', List.getElem?_append_left hz]

/-! ## The hypotheses are met, and what happens without them -/

/-- `StringType`: keeps a string, makes one of an int, fails on everything else (`types/base.py:389-404`). -/
def strTy : Ty := .leaf (fun | .atom (.str _) => .keep | .atom (.int i) => .make (.str (toString i)) | _ => .fail)
  (fun | .atom (.str s) => .make (.str s) | _ => .fail)

/-- `BaseType`: hands back what it is given (`types/base.py:271-280`). -/
def baseTy : Ty := .leaf (fun _ => .keep) (fun _ => .keep)

/-- `class Doc(Model): tags = ListType(StringType(), default=…)` and `class Any(Model): x = BaseType(default=…)`; the defaults are the objects 0 and 1. -/
def docs : Env where
  fields := fun
    | "Doc" => some [⟨"tags", [.str "tags"], .list strTy false fun _ _ => true, false, .obj 0, fun _ _ => true, false⟩]
    | "Any" => some [⟨"x", [.str "x"], baseTy, false, .obj 1, fun _ _ => true, false⟩]
    | "Box" => some [⟨"d", [.str "d"], .poly ["Doc"] true, false, .none, fun _ _ => true, false⟩]
    | _ => none
  isSub := fun a b => a == b
  find := fun cs _ => cs.head?

/-- The two default lists, `{}`, `{'tags': 7}`, and two dicts with the same list in them. -/
def start : Heap := [.list [], .list [], .dict [], .atom (.int 7), .dict [(.str "tags", 3)], .inst "Doc" [(.str "tags", 0)], .dict [(.str "d", 5)]]

/-- The options of `Model(raw_data)` (`models.py:221-238`). -/
def plain : Ctx := ⟨true, true, true, false, true⟩

-- Two documents made from `{}` have tag lists of their own; the default is a third object.
example : conv docs plain 5 (.model "Doc") start 2 = (start ++ [.list [], .inst "Doc" [(.str "tags", 7)]], .ok 8) := rfl
example : ∃ h' r', conv docs plain 5 (.model "Doc") (conv docs plain 5 (.model "Doc") start 2).1 2 = (h', .ok r') ∧ h'.obj r' = .inst "Doc" [(.str "tags", 9)] := ⟨_, _, rfl, rfl⟩

example : Closed start := by
  intro o ho k hk
  simp only [start, List.mem_cons, List.mem_nil_iff, or_false] at ho
  rcases ho with rfl | rfl | rfl | rfl | rfl | rfl | rfl <;> simp_all [Obj.kids, start]
example : (Ty.model "Doc").Strict plain := trivial
example : strTy.Strict plain := by
  intro o h
  cases o with
  | atom v => rfl
  | _ => cases h

/-- **C93**, why leaf types matter: two instances with a `BaseType` field share its default — appending to the list of the one changes the other, and all to come. -/
theorem C93_counterexample_base : ∃ h1 r1 h2 r2, conv docs plain 5 (.model "Any") start 2 = (h1, .ok r1) ∧ conv docs plain 5 (.model "Any") h1 2 = (h2, .ok r2) ∧
    r1 ≠ r2 ∧ h2.obj r1 = .inst "Any" [(.str "x", 1)] ∧ h2.obj r2 = .inst "Any" [(.str "x", 1)] ∧ h2.obj 1 = .list [] :=
  ⟨_, _, _, _, rfl, rfl, by decide, rfl, rfl, rfl⟩

/-- **C93**, why polymorphic fields matter: an instance of an allowed class is not copied. -/
theorem C93_counterexample_poly : ∃ h1 r1, conv docs plain 5 (.model "Box") start 6 = (h1, .ok r1) ∧ h1.obj r1 = .inst "Box" [(.str "d", 5)] := ⟨_, _, rfl, rfl⟩

/-- **C93**, failing conversions are different: the partial data of the error holds the default object of the failed field itself, not a copy.  (After a failed
`validate(apply_defaults=True)` the partial data become the data of the instance, `models.py:259-262`.) -/
theorem C93_counterexample_failure : ∃ h1 p, conv docs plain 5 (.model "Doc") start 4 = (h1, .data p) ∧ h1.obj p = .dict [(.str "tags", 0)] := ⟨_, _, rfl, rfl⟩

-- Export: a list of its own.
example : ∃ h1 r, expo docs 10 5 (.model "Doc") start 5 = (h1, .ok r) ∧ h1.obj r = .dict [(.str "tags", 7)] ∧ h1.obj 7 = .list [] := ⟨_, _, rfl, rfl, rfl⟩

/-- **C94**, why leaf types matter: the exported dict holds the very list of the instance if the field is a `BaseType`. -/
theorem C94_counterexample_base :
    ∃ h1 r, expo docs 10 5 (.model "Any") (start ++ [.inst "Any" [(.str "x", 1)]]) 7 = (h1, .ok r) ∧ h1.obj r = .dict [(.str "x", 1)] := ⟨_, _, rfl, rfl⟩

/-- Documents only: their tags and, below them, further documents. -/
def tidy : Env where
  fields := fun k => if k = "Doc" then some
    [⟨"tags", [.str "tags"], .list strTy false fun _ _ => true, false, .obj 0, fun _ _ => true, false⟩,
     ⟨"subs", [.str "subs"], .list (.model "Doc") false fun _ _ => true, false, .none, fun _ _ => true, false⟩] else none
  isSub := fun a b => a == b
  find := fun cs _ => cs.head?

theorem strTy_strict (c : Ctx) : strTy.Strict c := by
  intro o h
  cases o with
  | atom v => rfl
  | _ => cases h

theorem strTy_out : strTy.StrictOut := by
  intro o h
  cases o with
  | atom v => rfl
  | _ => cases h

theorem tidy_fields {cls : String} {fds : List Fld} (h : tidy.fields cls = some fds) {fd : Fld} (hf : fd ∈ fds) :
    (fd.ty = .list strTy false (fun _ _ => true) ∧ fd.dflt = .obj 0) ∨ (fd.ty = .list (.model "Doc") false (fun _ _ => true) ∧ fd.dflt = .none) := by
  simp only [tidy] at h
  split at h
  · cases h
    simp only [List.mem_cons, List.mem_nil_iff, or_false] at hf
    rcases hf with rfl | rfl
    · exact .inl ⟨rfl, rfl⟩
    · exact .inr ⟨rfl, rfl⟩
  · cases h

theorem tidy_strict (c : Ctx) : tidy.Strict c := by
  intro cls fds h fd hf
  rcases tidy_fields h hf with ⟨h, -⟩ | ⟨h, -⟩
  · rw [h]; exact strTy_strict c
  · rw [h]; trivial

theorem tidy_out : tidy.StrictOut := by
  intro cls fds h fd hf
  rcases tidy_fields h hf with ⟨h, -⟩ | ⟨h, -⟩
  · rw [h]; exact strTy_out
  · rw [h]; trivial

/-- The default tags `['t']`, and the input `[{}, {}]` for the documents below, twice the same `{}`. -/
def given : Heap := [.list [1], .atom (.str "t"), .dict [], .list [2, 2], .dict [(.str "subs", 3)]]

theorem given_closed : Closed given := by
  intro o ho k hk
  simp only [given, List.mem_cons, List.mem_nil_iff, or_false] at ho
  rcases ho with rfl | rfl | rfl | rfl | rfl <;> simp_all [Obj.kids, given]

theorem given_ok : tidy.Ok given := by
  intro cls fds h fd hf
  rcases tidy_fields h hf with ⟨-, h⟩ | ⟨-, h⟩ <;> rw [h]
  · simp [given]
  · trivial

-- A document whose two sub-documents are two instances although the input has one dict for both; three lists of tags, none of them the default.
example : ∃ h r, conv tidy ⟨true, false, true, false, true⟩ 9 (.model "Doc") given 4 = (h, .ok r) ∧ h.obj r = .inst "Doc" [(.str "tags", 5), (.str "subs", 10)] ∧
    h.obj 10 = .list [7, 9] ∧ h.obj 7 = .inst "Doc" [(.str "tags", 6)] ∧ h.obj 9 = .inst "Doc" [(.str "tags", 8)] := ⟨_, _, rfl, rfl, rfl, rfl, rfl⟩

-- Emptying the default list is not seen in the document made from `{}`.
example : ∀ m, view m ((conv tidy plain 9 (.model "Doc") given 2).1.set 0 (.list [])) 7 = view m (conv tidy plain 9 (.model "Doc") given 2).1 7 := by
  have hr : conv tidy plain 9 (.model "Doc") given 2 = (given ++ [.list [1], .atom .none, .inst "Doc" [(.str "tags", 5), (.str "subs", 6)]], .ok 7) := rfl
  rw [hr]
  exact C93_stays tidy plain 9 (.model "Doc") given 2 given_closed given_ok (by decide) (tidy_strict plain) trivial hr [.write 0 (.list [])]
    ⟨⟨⟨_, rfl, rfl⟩, fun k hk => by simp [Obj.kids] at hk, fun p hp =>
      C93_new tidy plain 9 (.model "Doc") given 2 given_closed given_ok (by decide) (tidy_strict plain) trivial hr 0 ⟨_, rfl, rfl⟩ p hp 0 (by decide) [] (.here 0)⟩, trivial⟩

-- Exporting that document: the dict and its list are new.
example : ∃ h1 r, expo tidy 10 9 (.model "Doc") (conv tidy plain 9 (.model "Doc") given 2).1 7 = (h1, .ok r) ∧
    h1.obj r = .dict [(.str "tags", 9), (.str "subs", 6)] ∧ h1.obj 9 = .list [8] := ⟨_, _, rfl, rfl, rfl⟩

end Verif.Fresh
