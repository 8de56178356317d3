import Verif.Lib.EqGraph

/-!
# Several threads comparing instances at the same time

`Model.__eq__` (`models.py:408-424`) keeps its memo in a default argument, `memo=set()`, which is one set shared by all threads.  Here
`__eq__` is written as a program whose only visible actions are the three operations on that set; any interleaving of the actions of any
number of threads is allowed.  The objects compared are not changed while they are compared.
-/
namespace Verif.EqGraph

variable {S : Type}

/-- A thread that is comparing: the next operation on the shared set and what follows, or the results of its comparisons. -/
inductive Prog
  /-- all comparisons done -/
  | done (rs : List (R Bool))
  /-- `key in memo` (`models.py:414`) -/
  | test (k : MKey) (c : Bool → Prog)
  /-- `memo.add(key)` (`models.py:417`) -/
  | add (k : MKey) (c : Prog)
  /-- `memo.remove(key)` (`models.py:424`); the second continuation is for `KeyError` -/
  | remove (k : MKey) (c : Prog) (missing : Prog)

/-- What follows a comparison. -/
abbrev Cont := R Bool → Prog

/-- The loop over the fields (`models.py:419-422`). -/
def fieldsP (cmp : GVal S → GVal S → Cont → Prog) (other : Obj S) : List (String × GVal S) → Cont → Prog
  | [], c => c (.ok true)
  | (k, v) :: fs, c => cmp v (getF other k) fun r =>
    match r with
    | .ok true => fieldsP cmp other fs c
    | r => c r

/-- Element-wise comparison of lists. -/
def listP (cmp : GVal S → GVal S → Cont → Prog) : List (GVal S) → List (GVal S) → Cont → Prog
  | [], [], c => c (.ok true)
  | x :: xs, y :: ys, c => cmp x y fun r =>
    match r with
    | .ok true => listP cmp xs ys c
    | r => c r
  | _, _, c => c (.ok false)

/-- `Model.__eq__` (`models.py:408-424`) in thread `tid`: test, add, loop, and in any case remove. -/
def objP (cmp : GVal S → GVal S → Cont → Prog) (h : Heap S) (tid a b : Nat) (c : Cont) : Prog :=
  if a = b then c (.ok true)
  else
    match h[a]?, h[b]? with
    | some oa, some ob =>
      if oa.cls ≠ ob.cls then c (.ok false)
      else .test (a, b, tid) fun hit =>
        if hit then c (.ok true)
        else .add (a, b, tid) (fieldsP cmp ob oa.fields fun r => .remove (a, b, tid) (c r) (c (.error (.other "KeyError"))))
    | _, _ => c (.error (.other "dangling"))

/-- `==` of two field values in thread `tid`, with fuel for the stack. -/
def eqP (sc : S → S → R Bool) (h : Heap S) (tid : Nat) : Nat → GVal S → GVal S → Cont → Prog
  | 0, _, _, c => c (.error .fuel)
  | n + 1, x, y, c =>
    match x, y with
    | .none, .none => c (.ok true)
    | .scalar s, .scalar t => c (sc s t)
    | .ref a, .ref b => objP (eqP sc h tid n) h tid a b c
    | .list xs, .list ys => listP (eqP sc h tid n) xs ys c
    | _, _ => c (.ok false)

/-- A thread that makes several comparisons, one after the other, and collects the results. -/
def workP (sc : S → S → R Bool) (h : Heap S) (tid n : Nat) : List (GVal S × GVal S) → List (R Bool) → Prog
  | [], rs => .done rs
  | (x, y) :: w, rs => eqP sc h tid n x y fun r => workP sc h tid n w (rs ++ [r])

/-- The shared set and all threads. -/
structure World where
  memo : List MKey
  threads : Nat → Prog

/-- One operation of a program on a set of keys: the set and the program afterwards. -/
def stepP (m : List MKey) : Prog → List MKey × Prog
  | .done rs => (m, .done rs)
  | .test k c => (m, c (decide (k ∈ m)))
  | .add k c => (if k ∈ m then m else k :: m, c)
  | .remove k c e => if k ∈ m then (m.erase k, c) else (m, e)

/-- Thread `t` is scheduled for one operation. -/
def World.step (w : World) (t : Nat) : World :=
  let r := stepP w.memo (w.threads t)
  ⟨r.1, fun u => if u = t then r.2 else w.threads u⟩

/-- A schedule: which thread makes the next operation. -/
def World.run (w : World) (sched : List Nat) : World := sched.foldl World.step w

/-- All threads before their first operation; the set is empty. -/
def World.start (sc : S → S → R Bool) (h : Heap S) (n : Nat) (work : Nat → List (GVal S × GVal S)) : World :=
  ⟨[], fun t => workP sc h t n (work t) []⟩

end Verif.EqGraph
