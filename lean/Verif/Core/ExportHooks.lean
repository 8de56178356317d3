import Verif.Core.Converter
import Verif.Core.Factory

/-!
# User code called by an export

The engine of `Core/Export.lean` with every call of user code made explicit: getters of calculated fields, role functions, and `to_native`/`to_primitive` of scalar types are calls with effects on an
arbitrary state `σ`.  Each call is made at a *spot*, a list of steps that says where in the run it happens:

* a model exported at `p` has its `i`-th field at `p ++ [at i]`;
* a field at `p` has its getter called at `p ++ [get]`, the role function at `p ++ [role]`, and its value is exported at `p ++ [value]`;
* a value exported at `p`: the conversion of a scalar is called at `p ++ [conv]`, a nested model is exported at `p ++ [conv]`, and the `i`-th item of a list or dict at `p ++ [at i]`.

(Getters do not change the instance that is being exported: its data are fixed.)
-/
namespace Verif.Exports

open Verif

/-- One step into a run, see above. -/
inductive Hop
  | get | role | value | conv
  | at (i : Nat)
deriving DecidableEq, Repr

/-- Where in a run something happens. -/
abbrev Spot := List Hop

/-- What begins at a spot: the export of a model, or of a value of a field (with the export level of the owner). -/
inductive Visit
  | model (c : ClassDef) (src : Src)
  | value (owner : Nat) (f : Field) (v : Val)

/-- The user code of a program: what happens when the code with the given pure meaning is called (`types/serializable.py:84`, `transforms.py:268`, `types/base.py:293-301`).
`note` stands for an observer: in a program it does nothing. -/
structure Hooks (σ : Type) where
  getter : Spot → (Data → Option Val) → Data → St σ Val
  role : Spot → RoleFn → String → Val → St σ Bool
  conv : Spot → Fmt → Leaf → Val → Val → St σ Val
  note : Spot → Visit → σ → σ := fun _ _ s => s

/-- Something is noted. -/
def noted (h : Hooks σ) (p : Spot) (x : Visit) : St σ Unit := fun s => (.ok (), h.note p x s)

/-- A recursive call to `field.export`: spot, owner level, field, value. -/
abbrev HERec (σ : Type) := Spot → Nat → Field → Val → St σ Val

/-- `value = mapping[field_name]`, any exception read as `Undefined` (`iteration.py:63-67`, `types/serializable.py:80-88`). -/
def readH (h : Hooks σ) (p : Spot) (fd : FieldDef) : Src → St σ Val
  | .inst d =>
    match fd.fget with
    | some g => St.handle (h.getter (p ++ [.get]) g d) (fun v => St.pure (.ok v)) fun _ => St.pure (.ok .undef)
    | none => St.pure (.ok (rawValue d fd.name))
  | .map d => St.pure (.ok (rawValue d fd.name))
  | .other => St.pure (.ok .undef)

/-- `filter_func is not None and filter_func(field_name, value)` (`transforms.py:268`). -/
def askH (h : Hooks σ) (p : Spot) (name : String) (v : Val) : Option RoleFn → St σ Bool
  | some g => h.role (p ++ [.role]) g name v
  | none => St.pure (.ok false)

/-- The value of a field that is not filtered out (`transforms.py:271-292`). -/
def permitH (rec : HERec σ) (ctx : ECtx) (owner : Nat) (p : Spot) (fd : FieldDef) (v : Val) : St σ (Option Val) :=
  if exportLevelOf ctx owner fd.field = DROP then St.pure (.ok none)
  else
    St.bind (if v.isEmpty then St.pure (.ok v) else rec (p ++ [.value]) owner fd.field v) fun w =>
      St.pure (.ok (if hidden (exportLevelOf ctx owner fd.field) fd.field w then none else some (nullify w)))

/-- One field of the loop (`transforms.py:265-292`). -/
def exportFieldH (h : Hooks σ) (rec : HERec σ) (ctx : ECtx) (owner : Nat) (flt : Option RoleFn) (src : Src) (p : Spot) (fd : FieldDef) : St σ (Option Val) :=
  St.bind (readH h p fd src) fun v =>
    St.bind (askH h p fd.name v flt) fun b =>
      if b then St.pure (.ok none) else permitH rec ctx owner p fd v

/-- The loop over the fields, from the `i`-th on (`transforms.py:265-292`). -/
def exportFieldsH (h : Hooks σ) (rec : HERec σ) (ctx : ECtx) (owner : Nat) (flt : Option RoleFn) (src : Src) (p : Spot) : Nat → List FieldDef → Data → St σ Data
  | _, [], d => St.pure (.ok d)
  | i, fd :: fds, d => St.bind (exportFieldH h rec ctx owner flt src (p ++ [.at i]) fd) fun o => exportFieldsH h rec ctx owner flt src p (i + 1) fds (putX fd d o)

/-- The role and the fields (`transforms.py:249-292`). -/
def exportBodyH (h : Hooks σ) (rec : HERec σ) (ctx : ECtx) (c : ClassDef) (src : Src) (p : Spot) : St σ Data :=
  match roleFilter ctx c with
  | none => St.pure (.error (.other "ValueError"))
  | some flt => exportFieldsH h rec ctx c.exportLevel flt src p 0 c.fields []

/-- `export_loop` (`transforms.py:203-296`) at a spot. -/
def exportLoopH (h : Hooks σ) (rec : HERec σ) (ctx : ECtx) (c : ClassDef) (src : Src) (p : Spot) : St σ Data :=
  St.bind (noted h p (.model c src)) fun _ => exportBodyH h rec ctx c src p

/-- Loop of `ListType._export` (`types/compound.py:260-268`), from the `i`-th item on. -/
def exportItemsH (f : Nat → Val → St σ Val) (hide : Val → Bool) : Nat → List Val → St σ (List Val)
  | _, [] => St.pure (.ok [])
  | i, x :: xs => St.bind (f i x) fun y => St.bind (exportItemsH f hide (i + 1) xs) fun ys => St.pure (.ok (if hide y then ys else y :: ys))

/-- Loop of `DictType._export` (`types/compound.py:324-332`), from the `i`-th entry on. -/
def exportPairsH (f : Nat → Val → St σ Val) (hide : Val → Bool) : Nat → List (Key × Val) → St σ Data
  | _, [] => St.pure (.ok [])
  | i, (k, x) :: xs => St.bind (f i x) fun y => St.bind (exportPairsH f hide (i + 1) xs) fun ys => St.pure (.ok (if hide y then ys else (k, y) :: ys))

/-- The items of a list, exported. -/
def listH (rec : HERec σ) (p : Spot) (owner l : Nat) (inner : Field) : Option (List Val) → St σ Val
  | none => St.pure (.error (.other "TypeError"))
  | some xs => St.bind (exportItemsH (fun i x => rec (p ++ [.at i]) owner inner x) (hiddenItem l inner) 0 xs) fun ys => St.pure (.ok (.list ys))

/-- The entries of a dict, exported. -/
def dictH (rec : HERec σ) (p : Spot) (owner l : Nat) (inner : Field) : Option (List (Key × Val)) → St σ Val
  | none => St.pure (.error (.other "AttributeError"))
  | some xs => St.bind (exportPairsH (fun i x => rec (p ++ [.at i]) owner inner x) (hiddenItem l inner) 0 xs) fun ys => St.pure (.ok (.dict ys))

/-- The class and source that were found, exported. -/
def nestedH (h : Hooks σ) (rec : HERec σ) (ctx : ECtx) (p : Spot) : R (ClassDef × Src) → St σ Val
  | .error e => St.pure (.error e)
  | .ok (c, src) => St.bind (exportLoopH h rec ctx c src p) fun d => St.pure (.ok (.dict d))

/-- What `field.export` does with a value, by type (`types/base.py:293-294`, `types/compound.py:164-169`, `251-269`, `315-333`, `435-441`). -/
def exportTypeH (h : Hooks σ) (rec : HERec σ) (env : Env) (ctx : ECtx) (p : Spot) (owner : Nat) (t : FType) (v : Val) : St σ Val :=
  match t with
  | .leaf l => h.conv (p ++ [.conv]) ctx.fmt l ctx.app v
  | .list inner _ _ =>
    if exportLevelOf ctx owner inner = DROP then St.pure (.ok (.list []))
    else listH rec p owner (exportLevelOf ctx owner inner) inner (iterItems env v)
  | .dict inner _ =>
    if exportLevelOf ctx owner inner = DROP then St.pure (.ok (.dict []))
    else dictH rec p owner (exportLevelOf ctx owner inner) inner (iterPairs env v)
  | .model cls => nestedH h rec ctx (p ++ [.conv]) (nested env (.model cls) v)
  | .poly q => nestedH h rec ctx (p ++ [.conv]) (nested env (.poly q) v)

/-- `field.export(value, format, context)`. -/
def exportFH (h : Hooks σ) (rec : HERec σ) (env : Env) (ctx : ECtx) (p : Spot) (owner : Nat) (f : Field) (v : Val) : St σ Val :=
  St.bind (noted h p (.value owner f v)) fun _ => exportTypeH h rec env ctx p owner f.ty v

/-- `field.export` with fuel. -/
def fieldExportH (h : Hooks σ) (env : Env) (ctx : ECtx) : Nat → HERec σ
  | 0 => fun _ _ _ _ => St.pure (.error .fuel)
  | n + 1 => exportFH h (fieldExportH h env ctx n) env ctx

/-- `to_primitive` / `to_native` (`transforms.py:431-436`) on a class. -/
def runExportH (h : Hooks σ) (env : Env) (n : Nat) (ctx : ECtx) (c : ClassDef) (src : Src) : St σ Data :=
  exportLoopH h (fieldExportH h env ctx n) ctx c src []

/-! ## Watching -/

/-- What happens in a run: something begins, or user code is called, with its result. -/
inductive Deed
  | begin (x : Visit)
  | getter (g : Data → Option Val) (d : Data) (r : R Val)
  | role (f : RoleFn) (name : String) (v : Val) (r : R Bool)
  | conv (fmt : Fmt) (l : Leaf) (app v : Val) (r : R Val)

/-- Something that happened at a spot. -/
structure Event where
  spot : Spot
  deed : Deed

/-- The same computation; what it did is appended to a list. -/
def watched (p : Spot) (w : R α → Deed) (m : St σ α) : St (σ × List Event) α := fun s =>
  ((m s.1).1, ((m s.1).2, s.2 ++ [⟨p, w (m s.1).1⟩]))

/-- The same user code, every call watched. -/
def Hooks.watched (h : Hooks σ) : Hooks (σ × List Event) where
  getter p g d := Exports.watched p (.getter g d) (h.getter p g d)
  role p f name v := Exports.watched p (.role f name v) (h.role p f name v)
  conv p fmt l app v := Exports.watched p (.conv fmt l app v) (h.conv p fmt l app v)
  note p x s := (h.note p x s.1, s.2 ++ [⟨p, .begin x⟩])

/-- What happens in a run from the state `s`. -/
def happens (h : Hooks σ) (env : Env) (n : Nat) (ctx : ECtx) (c : ClassDef) (src : Src) (s : σ) : List Event :=
  (runExportH h.watched env n ctx c src (s, [])).2.2

end Verif.Exports
