# Formal model of schematics in Lean 4 - design

Source modelled: `/repo/schematics` (pinned commit), Python 3 code paths only.
Everything is read as text; the code is never run.  The only tie between the
model and the code is the citation (`file:lines`) on every definition.

## 1. Shape of the model

* `Verif/Py/*`   - the bits of Python the code relies on: insertion-ordered
  dicts (`Dict`), values (`Val`), exceptions as values (`Exc`), integer and
  float text (`Text`, `Number`), IEEE doubles (`Float`, `FloatMore`), the
  proleptic calendar (`Calendar`), regular expressions: denotational languages
  (`Regex`) and a matcher with backtracking order (`Match`).
* `Verif/Core/*` - the transform engine: fields and schemas, `import_loop`,
  `_mutate`, `validate`, `_validate_model`, compound types, `export_loop`,
  `ModelDict` and the `Model` instance operations.
* `Verif/Types/*` - the built-in scalar types (`Number`, `Text`, `DateTime`,
  `Net`, `Web`, `Misc`) and their mocks (`Mock`).
* `Verif/Lib/*`  - roles, frozen containers and errors, `Context`, the model
  metaclass (`Meta`), the type metaclass (`TypeClass`), validator calling
  conventions (`Callable`), subclass enumeration (`Subclass`), mock objects,
  `Machine`, cyclic `__eq__` on a heap graph (`EqGraph`).
* `Verif/Spec`, `Verif/Samples` - small specification vocabulary used in the
  statements, and a concrete schema used to show that hypotheses are met.
* `Verif/Props/*` - property theorems only (`Cnn_...`), each with a
  non-vacuity `example`; helper lemmas live next to the model.

Techniques: shallow embedding, exceptions as values, loops as folds,
recursion through fields by *open recursion with fuel*: the functions
`fieldConvF rec ...` are non-recursive and the knot is tied by
`fieldConv : Nat -> ...`, where running out of fuel is Python's
`RecursionError`.  Theorems quantify over all fuels; a separate theorem gives
a sufficient fuel (termination).

Built-in and custom scalar types are one abstract structure `Leaf`
(arbitrary `to_native`, `to_primitive`, optional `validate` override), so the
engine theorems hold for *every* scalar type, including user-defined ones; the
concrete types are instances and have their own theorems.

## 2. Trusted base

* Lean 4.33.0 kernel.  No axiom is added.  Every property theorem depends on a
  subset of `propext`, `Classical.choice`, `Quot.sound`; `AXIOMS.txt` lists the
  axioms of each theorem (regenerate with `tools/axioms.sh`).  No proof uses
  `native_decide` or `bv_decide`; `decide +kernel` is used for some closed
  computations and is checked by the kernel.
* The reading of the code: every definition cites the lines it models, and the
  simplifications below and at the definitions.  Nothing ties the model to the
  code mechanically.
* The reading of the Python runtime used by the code (`dict`, `str`, `int()`,
  `float()`, `re`, `datetime`, `decimal`, `uuid`, `enum`, `inspect`, method
  resolution order), modelled in `Verif/Py` and marked as such.

### Modelled code

| file | modelled | not modelled |
|------|----------|--------------|
| `transforms.py` | `import_loop`, `_mutate` uses, `export_loop`, converters, role lookup, `wholelist/whitelist/blacklist` | deprecated aliases |
| `validate.py` | `validate`, `_mutate`, `_validate_model`, `prepare_validator` | warnings |
| `models.py` | `ModelMeta`, `ModelDict`, `FieldDescriptor`, `Model` (init, validate, import_data, convert, export, serialize, mapping interface, `__eq__`, `get_mock_object`, `_append_field`), options incl. `__optionsclass__` | `repr`, `ModelHelpTextMixin` |
| `schema.py` | everything | |
| `iteration.py` | everything | |
| `role.py` | everything but `__repr__` | |
| `exceptions.py` | `ErrorMessage`, field errors, `CompoundError`, `DataError`, `to_primitive`, as values and as objects with caches | tracebacks, Python 2 text |
| `datastructures.py` | `DataObject` (but `__repr__`), `Context`, `FrozenDict`, `FrozenList` | `ChainMap` as a class of its own (`get`, `__contains__`, `__getitem__` are modelled step by step in `Core/Readers`; the rest of its behaviour is part of the `ModelDict` model) |
| `types/base.py` | all types: conversion, validation, export, mocks | `metadata`, callable `serialized_format`, directives of `strptime`/`strftime` beyond `%Y %y %m %d %H %M %S %f %z %%`, encodings other than UTF-8 |
| `types/compound.py` | `ListType`, `DictType`, `ModelType`, `PolyModelType` | |
| `types/net.py` | all regular expressions, `URLType.valid_url`, mocks of addresses | `verify_exists`, IDNA (an arbitrary function with a hypothesis) |
| `types/serializable.py` | getters and setters as field kinds, the decorator `serializable` | normalisation of `messages`, `validators` |
| `types/union.py` | everything (`Types/Misc` for scalar members, `Types/Union` for compound ones) | options handed on to member *classes*; a union of compound types nested in the engine's schemas |
| `contrib/*` | `EnumType`, `Machine`, `ObjectIdType` | `bson` (the text form of object ids is modelled) |
| `util.py`, `common.py`, `undefined.py` | `listify`, `get_all_subclasses`, `import_string`, level constants, `Undefined` as a value | `setdefault` |
| `translator.py` | `LazyText`, `register_translator` (in `Lib/ErrorHeap`) | formatting of lazy texts |
| `deprecated.py`, `compat.py` | - | all |

## 3. Simplifications (global)

1. Object identity/aliasing is not modelled except where a property is about
   it (cyclic equality, shared type objects, contexts, `ModelDict.__valid`,
   the dicts behind the layers of instances in C92, all containers in C93 and
   C94).
   Values are immutable trees; a nested model instance is `Val.inst cls data`.
   In particular the caller's dicts given as lazy input or trusted data are not
   aliased, and the identity shortcut of container `==` is not modelled.
2. `default` is a constant value (a callable default = its value at that call); `Core/Factory` lifts this: defaults there are calls with effects, and `C97_steady` shows that factories which always return the same value behave as constants. `Core/Hooks` and `Core/ExportHooks` do the same for all user code (`C102_steady`, `C104_steady`).
3. Dict keys are `str` or `int`.
4. Iteration order over Python `set`s (rogue fields) is the input order.
5. Message texts are modelled as tags, not the translated sentences; the
   `info` of a message is a text, an int or None.
6. Scalar types, field validators and claim functions see the value and
   `app_data`; they do not inspect other context options.
7. Model-level validators may return changed data or raise; they do not mutate
   the instance.  Setters (`fset`) return the scalar assignments they make; one
   that raises makes none; on a plain dict they have no effect.
8. `raw_data=None` (got_data False) does not occur: `Model.__init__` replaces
   a missing input by `{}`.
9. Floats are IEEE doubles with round-half-even, infinities and one NaN, but
   without signed zeros; `Decimal` without exponent limits, signalling NaNs and
   NaN payloads.  CPython's limit of 4300 digits in `int()` is not modelled.
   The table of decimal digits is Unicode 14.  `int()`/`float()` of non-ASCII
   texts that contain the blanks U+001C-U+001F are refused by the model.
10. Regular expressions are interpreted by a model of `re` (greedy backtracking,
    `re.I` folded into the character classes).
11. UUIDs of 2^128 and above, which Python cannot build, are given no meaning.
12. Instances: an explicit `Undefined` is stored and not skipped by the view;
    `in`/`get` for names of methods of `Model` are not modelled.
13. Mocks: randomness is a tape of arbitrary outcomes; `random.uniform` is any
    rational within its bounds.  `Lib/MockObject` (C77) stops before the
    constructor call at the end of `get_mock_object`; `Core/Mock` (C103) has it,
    with the values and the constructor of the engine.
14. Type objects: one type object given to two fields of one body is excluded
    by the hypothesis `Fresh` (except in the C85_shared theorems); hash functions are arbitrary.
15. `Callable`: keyword-only parameters, `functools.partial` and C functions are
    not modelled.
16. Lists cannot contain themselves (C43 is about cycles through models); enums
    mixed with other types are not modelled.
17. Python 2 branches, warnings, `repr` and network access are not
    modelled.

## 4. Per property: what is modelled, how it is proved

| id | model part | proof | conditions stated, exceptions proved |
|----|-----------|-------|-----|
| C01 | `Core/Import`: the import and validation loops | induction over the field list, result characterised field by field against `solo` imports; validation of any class (`Props/Methods`) against the relations `Prepared` (setters), `Goes` (a field), `MethodsRun` (methods) | |
| C02, C03 | rogue check; lookups read accepted keys only | set reasoning, congruence of the fold | |
| C04 | keys of the fold result; `OnlyDeclared` follows list items, dict values and nested models of results and of `partial_data` | invariant of the fold; at depth (`C04_at_every_depth`) by induction on fuel over what each converter leaves in the data | validators of compound fields must not themselves raise `DataError`; model-level validators only check |
| C05, C17 | predicates on values, defined by recursion over the schema | induction on fuel | trusted data excepted |
| C06 | schema transformer `dropRequired` | induction on fuel, equality of runs | element types keep `required` |
| C07-C12 | one-field step | case analysis, decomposition of the fold; `Props/FieldEntry`: one relation `Stored` (what the data holds for a field, given the input), shown to be functional and to be what every import and validation of any class leaves (C07, C09, C11, C12 `_any_run`, `C12_every_field`, `C12_validated_fields`) | |
| C13, C14 | list and dict conversion | induction on the elements | |
| C15 | inductive relations "location p fails" for import and for validation (missing, unconvertible, rogue; with validation also: refused by its validators, whose verdicts are those of C18, or by a `validate_<field>` method at any level, called as the relation `Sweep` says, or by a setter at any level, after which the instance's values replace the input's, as `Prepared` says) | induction on fuel, both directions; any methods, getters and setters | |
| C16, C19, C38 | idempotence lifted from leaves | simulation between runs, induction on fuel | alias clashes, polymorphic validation |
| C18 | validator chain | induction on the validator list against an independent spec | |
| C20, C21 | `_validate_model`, nested `_mutate` | induction over fields and fuel; C20 for editing methods against the relation `MethodsRun` | functional API, `convert=False` |
| C22 | depth bound of fuel, monotonicity in fuel | induction on depth; divergence for every fuel | compound defaults; excludes setters |
| C23-C30 | `Core/Export` | induction over fields and fuel | |
| C31 | JSON predicate | induction on fuel | leaves export JSON, no explicit `Undefined` |
| C32 | import after export | induction on the typing derivation (`Portable`) | swapped names, None items |
| C33-C41, C76 | `Core/Instance`: the layers of `ModelDict` as a state machine | invariants over histories of calls; for classes with getters, setters and editing methods (`Props/Instance5`) what a validation stores for a field, from `Stored` and `MethodsRun` | lazy instances, see the counterexamples |
| C42 | `__eq__` on views | algebra | undefined fields |
| C43 | `Lib/EqGraph`: memoised comparison on a heap graph | measure: pairs not yet in the memo | |
| C44-C49, C56, C57 | `Types/Number`, `Types/Text` | proofs about digit texts, IEEE rounding, ranges | infinities, huge ints |
| C50-C55, C84 | `Py/Calendar`, `Types/DateTime` | civil-day arithmetic; parser = grammar; rounding error bounds | years before 1000, far instants, sub-second units |
| C58-C61 | `Types/Net` | regular expression = language, both directions | `$` and newline, ungrouped alternation |
| C62-C65 | `Types/Misc` | case analysis, induction over members | |
| C66, C82 | candidates, `get_all_subclasses` | induction over the candidate list / the class order | diamonds |
| C67 | exception classes of every scalar type | case analysis over all values | listed exceptions |
| C68, C69 | `Lib/Error` | structural induction on error trees | bare texts |
| C70 | `Lib/Context`: heap of contexts | invariants over histories | |
| C87 | `Lib/Atoms` | list induction, link to `Core/Instance` and `Core/Export` | |
| C88 | `Lib/Serializable`: the decorator on the heap of type objects | induction over the options | lost export level |
| C89 | `Types/Union`: `_types`, `resolve`, `convert`, `validate`, export with members of any field type | induction over members; the compound conversions never raise a field error | one member per class; model members cannot be exported |
| C90 | `Lib/EqThreads`: `__eq__` as a program of operations on the shared set; worlds of any number of threads, any schedule | each thread touches its own keys only; simulation by the thread alone; refinement to `EqGraph` | objects do not change meanwhile; single set operations are atomic |
| C91 | `Core/Instance`: every call gives a state also when it raises | the validated layer is changed by finished validations and deletions only | |
| C92 | `Core/Alias`: the layers of instances as references into a heap of dict objects that the program shares | refinement: the heap world simulates a world of values; frame conditions for every method; induction over programs | dicts handed over as lazy input or trusted data (counterexamples) |
| C93 | `Lib/Fresh`: values as objects in a heap; `conv` follows `Core/Import` as far as it decides which object ends up where | the result owns a tree of new objects (induction over the recursion, ownership lists for containers under construction); frame rules for later changes; induction over programs | trusted data, setters and mappings; validators are pure |
| C94 | `Lib/Fresh.expo` | the same | getters |
| C95 | `Core/Converter`: the export loop with a converter of the caller, whose calls are state transformers over an arbitrary state; `Core/Export` is the case of the standard converters (theorem, not assumption) | relational inversion of the loop (`Calls`, `Becomes`), invariants for arbitrary converters, a logging converter whose log is characterised by an inductive relation (`Involves`) by induction on the depth of recursion | converters that change the instance while it is exported (the source is read when the loop reaches the field, from a value) |
| C96 | `Core/Export` with recursion limit | induction on the limit with the depth of the readable data (`Readable`) as measure; monotonicity in the limit; the excluded case by induction on the limit | cyclic instances (values are trees in `Core`) |
| C97 | `Core/Factory`: the whole import engine with `field.default` as a state transformer that may raise | relational specification of a run (`ConvRun`, `FieldRun`, `LoopRun`) proved by induction over the fields for watched factories and converters; result-independence of the state (`Res`) through the engine for steady factories | `mock()` calling the factory; factories that change the classes |
| C98 | `Py/Strptime`: formats as lists of pieces, `strptime` as an ordered backtracking match, `strftime`; fields with `formats`/`serialized_format` | induction over the pieces: what was written is the first alternative at every step, so no backtracking happens; components by induction on the format; completeness (every spelling is read) by the same induction: every other alternative leaves a digit in front of a piece that cannot start with one; `DateType()` agrees with the general model. The model of `strptime`/`strftime` was compared with CPython 3.11 on 4000 random formats and texts (zero differences) | directives with names, `%j`, weeks, fractions of seconds in offsets; a directive that occurs twice; `re.IGNORECASE` beyond ASCII |
| C99 | `Lib/ImportString`: `import_string` over an arbitrary import system, references with `_model_class` as a cell, histories of declare/copy/setup/use | specification by the longest importable prefix and attribute chains; induction over the parts of the name (last first), invariants over histories | the import system does not change during one call; the text of `ImportStringError` |
| C100 | `Lib/Options`: options objects with arbitrary attributes, `roles`/`extras` as dict objects that classes share, `_read_options`, `SchemaOptions.__init__`, `__iter__` | invariant (`Proper`) over histories; a record of what merging a body does (`Merged`), composed member by member | an options class given as `__optionsclass__` is taken to pass known arguments on and keep its own as attributes |
| C101 | `Lib/ErrorHeap`: messages, lists, dicts, errors and reports as objects; caches of reports and hashes; lazy texts and the registered translator; histories of events | step lemmas for messages, errors and reports, induction on histories; an invariant (registry of frozen objects, right caches) for hashes; construction agrees with the value-level constructors of `Lib/Error` in every reachable state | of the mutable things a program may put into an error dict only lists of texts are modelled; `partial_data` is not |
| C102 | `Core/Hooks`: the whole import/validation engine with all user code as state transformers over an arbitrary state, called at named places; the same engine with every call recorded | a judgement (`Watch`) about the recorded calls of a computation — where they are, their order, what an exception among them implies — with rules for sequence and `try`, applied to each function and by induction on depth; exact lists of calls for a value and for the methods; result-independence (`Res`) for steady user code | getters, claim functions and key coercions are functions, not calls; `error reported` is claimed for programs without setters (an `AttributeError` there is swallowed, counterexample) |
| C104 | `Core/ExportHooks`: the export engine with getters, role functions and conversions as state transformers over an arbitrary state, called at named spots; the same engine with every beginning and every call recorded, with its result | a Hoare-style judgement (`Logged`) about the recorded events — order, reasons (`Cause`), what must follow (`Needs`), exceptions — closed under sequence; a relational judgement (`Paired`) for two runs; `C104_steady` links to `Core/Export` | getters do not change the instance they are called on |
| C105 | `Lib/RefThreads`: `model_class` and `_setup` as threads of single reads, writes and lookups sharing one cell; the import system may change at every step; any schedule | an invariant (`Sourced`) about where every object held by a thread or by the cell comes from, induction on the schedule; a measure of the steps a thread has left | looking a path up is one step (other threads may run import code meanwhile, but do not see it half done); names are not qualified |
| C106 | `Lib/ContextThreads`: the beginning of `import_loop`/`export_loop` with `_setdefaults` as threads sharing one attribute dict; any schedule | a generic invariant (`Keeps`) instantiated for each claim | copying and updating a dict with text keys are single steps, as in CPython with the GIL |
| C107 | `Core/Interrupt`: the methods of an instance as programs over cells (dict objects, attributes of `ModelDict`, entries of `maps`), one store per step, with a schedule of interrupts | without interrupts the programs are `Core/Alias` (and so `Core/Instance`); a Hoare logic with one postcondition for returns and one for interrupts; invariants over histories (`Sound`: the valid layer, `Calm`: the raw layer) | an interrupt inside one of the three bare `except:` clauses of the code is not modelled; setters' own code is one step per assignment |
| C108 | `Core/Readers`: the programs of `Core/Interrupt` run under a watcher that records the cells at every step (the film); a reader's `__get__` with `ChainMap.get`, `__contains__`, `__getitem__` as twelve steps, each at a moment of the film, in order | a second Hoare logic, about films; the film of a validation is cut in two (`Front`, `Back`): after the pending layer is exchanged, the valid layer already is; a reader takes the layers from top to bottom, so what it misses above it finds below (`safe_of_cut`, `safe_of_deleting`); only one thread writes, and atomic are single stores into dicts and attributes |
| C109 | `Core/Writers`: threads with adaptive programs; an assignment is two steps (the dict is looked up, the entry is stored), a reading the twelve steps of `Core/Readers`; a schedule is a list of thread numbers | the order is built along the schedule (`Running.step`): an assignment enters it when it stores, a reading when it misses the key in the assigned values (step 3) or else when it finds it again (step 9); a key never disappears meanwhile (`Grows`); calculated fields, deletions and the other methods are not allowed to the threads |
| C110 | `Types/ObjectId`: `ObjectIdType` with `bson.objectid.ObjectId(text)` (24 hexadecimal digits; spaces, which `bytes.fromhex` skips, are taken to be invalid) | induction over the digits from the right: the number read and `hexText` are inverse to each other (`fromHex_text`, `fromHex_hexText`) |
| C111 | `Lib/DataObject`: a heap of data objects, all their operations, `_to_dict` with the depth of the recursion as fuel; `__repr__` is not modelled | frame lemmas per operation; that every object has every attribute once is kept by all histories (`whole_runAll`); `_to_dict` against an inductive relation (`Unfolds`), with a rank of the objects for termination and a set closed under parts for cycles |
| C112 | `Lib/DataObject`: `==` of objects in the heap of C111, entry by entry with the depth of the recursion as fuel, identical objects being equal at once | induction over the depth, against reading along paths of names; `C42_value_equality` for symmetry and transitivity; a rank for termination | the identity shortcut for values that are no `DataObject`s is not modelled (NaN is excluded instead); values that contain `DataObject`s inside lists are not modelled |
| C113 | `Core/Alone`: the methods of a field called without a context, with the contexts they make for themselves | induction over the fuel for scalars, lists and dicts, against a model of one field; case analysis for `ModelType`, whose failure without the option `oo` is part of the statement | `None` as the value of a direct call is not modelled |
| C71, C72, C85, C86 | `Lib/Meta`: heap of type objects and class table | induction over class definitions and additions | shared element types; type objects used twice |
| C103 | `Core/Mock`: `mock`, `_mock` and `get_mock_object` with the values of the engine, ending with the constructor of `Core/Instance` | `Finally`: with enough stack the outcome is fixed and satisfies the claim, a notion closed under sequence; induction on the number of classes not visited; values kept by conversion and validation (`Kept`), built up for scalars, lists and objects; the origin of values by induction on fuel over any successful run | classes without computed fields and without an alias that is another field's name; no `app_data`; counterexamples: choices of list items, required dicts in lists, required recursive references |
| C73, C77 | `Types/Mock`, `Types/Web`, `Lib/MockObject` | arithmetic for all outcomes; the mocked text as a derivation of the address grammar (host name labels of at most 63 characters give the bound 73); termination measure on unvisited classes | |
| C74 | `Lib/Machine` | invariant over trigger histories | |
| C75 | mapping branch | congruence | |
| C78, C79 | `Py/Match`, `Types/Web` | matcher completeness and soundness against an inductive grammar | IDNA abstract |
| C80, C81 | `Lib/TypeClass` (C3 linearisation), `Lib/Callable` | invariants over class definitions; binding of arguments | mixins, bound methods |
| C83 | setter phase of validation | reduction to a class whose setters do nothing | |

Where the code violates what a user would expect, the property states exactly what
holds, with its conditions, and names the exceptions; a theorem
`Cnn_counterexample...` exhibits a violating run of the model for each condition
that is needed. The suffix `_partial` is reserved for theorems that prove less than
the property says (none at present).

## 5. Testing the theorems against wrong programs

`seeded/LOG.jsonl` has one line per wrong program tried in a scratch copy: hand-written
bugs, one per claim at least for the engine, and generated operator mutations of every
definition (negated conditions, changed boundaries, constants and connectives).  A wrong
program that no theorem noticed led to a new or tighter theorem, named in the field
`tightened`; what is left unnoticed is equivalent to the original (unreachable defaults)
or a change of a sample.
