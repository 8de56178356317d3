{"id": "C01", "title": "All field errors are reported together", "statement": "Importing raw data into a model either succeeds, or raises one DataError whose keys are exactly the external names of the fields whose own conversion fails plus (in strict mode) the unknown keys; it succeeds iff no field fails and there is no rogue key. No failing field hides another. The same holds for validation of any class, where the fields rejected by a setter and those rejected by their model-level validators are reported as well.", "quantifier": "every schema, every raw mapping, every import option set", "why_tests_cant": "tests try a few combinations of bad fields; the claim is about every subset of failing fields in every schema", "anchors": ["schematics/transforms.py:import_loop", "schematics/validate.py:validate"]}
{"id": "C02", "title": "Strict mode rejects exactly the unknown keys", "statement": "With strict=True an import fails with a 'Rogue field' entry for every input key that is neither a field name, nor a serialized name, nor a deserialize_from alias, nor a mapped key, and for no other key.", "quantifier": "every schema, every mapping, every raw mapping", "why_tests_cant": "the key space is unbounded", "anchors": ["schematics/transforms.py:import_loop", "schematics/schema.py:Schema.valid_input_keys", "schematics/types/base.py:BaseType.get_input_keys"]}
{"id": "C03", "title": "Non-strict mode ignores unknown keys", "statement": "With strict=False, adding, removing or changing any key which is not an accepted input name never changes the outcome (result data, errors or partial data) of an import.", "quantifier": "every schema, raw mapping and unknown key/value", "why_tests_cant": "metamorphic over all inputs", "anchors": ["schematics/transforms.py:import_loop"]}
{"id": "C04", "title": "Imported data contains only declared fields", "statement": "Every key of the converted data is a field of the schema or a key of the trusted data that was passed in; attacker-supplied keys never get in, on success or in partial_data. The same holds inside the values, at every depth: following list items, dict values and nested models, every nested model (instance, dict, or the partial data left by a nested failure) has only keys declared by its own class. Exempt: ready-made instances handed to a polymorphic field on import, and the raw values of fields with setters. (At depth: for validate_<field> methods that only check, trusted data that is not applied recursively, and conversion on; conversion off stores the input as it is.)", "quantifier": "every schema and raw mapping, at every nesting level, successful and failed runs", "why_tests_cant": "unbounded input", "anchors": ["schematics/transforms.py:import_loop"]}
{"id": "C05", "title": "required=True is enforced at every depth", "statement": "If a non-partial import or validation succeeds, then every required field in the resulting structure - top level, inside nested models, list items and dict values - has a value that is neither None nor undefined (unless it came from trusted data). (For validate_<field> methods that only check - one which edits the data can remove anything - fields without setters, trusted data that is not applied recursively, and conversion on.)", "quantifier": "every schema (including recursive ones) and every input of any depth", "why_tests_cant": "nesting depth is unbounded", "anchors": ["schematics/types/base.py:BaseType.check_required", "schematics/transforms.py:import_converter", "schematics/transforms.py:validation_converter"]}
{"id": "C06", "title": "partial=True is the same as dropping required from named fields", "statement": "An import with partial=True has the same outcome as the non-partial import with a schema in which required has been removed from every named field at all nesting levels. (required on the element type of a list or dict is still enforced.)", "quantifier": "every schema and every input of any depth", "why_tests_cant": "equivalence of two programs on all inputs", "anchors": ["schematics/types/base.py:BaseType.check_required"]}
{"id": "C07", "title": "Defaults apply only to absent values", "statement": "A field whose name or alias occurs in the input (even with value None) is never given its default on success; a field that is absent gets its (converted) default iff defaults are enabled, no trusted value exists and a default is defined. (Validations as well: there the input is first completed with the content of the instance, after its setters have run, and the statement is about the data before the validate_<field> methods see it, C20. Without validation: fields without setters.)", "quantifier": "every schema, raw mapping", "why_tests_cant": "all combinations of presence, None, alias, trust and options", "anchors": ["schematics/transforms.py:import_loop", "schematics/types/base.py:BaseType.default"]}
{"id": "C08", "title": "init=True leaves no field undefined", "statement": "After a successful import with value initialisation on, every non-settable field of the schema has an entry in the data, so attribute access on the new instance never raises UndefinedValueError.", "quantifier": "every schema and input", "why_tests_cant": "universal over schemas", "anchors": ["schematics/transforms.py:import_loop", "schematics/models.py:Model.__init__"]}
{"id": "C09", "title": "Input names are resolved with a fixed precedence", "statement": "The value used for a field is the one under the field's own name if present, else under its serialized name, else under the mapped names in order, else under deserialize_from in order; the first present key wins. (Validations as well: there the values of the instance, after its setters have run, first replace those of the input under the field's own name. Without validation: fields without setters.)", "quantifier": "every schema, mapping and raw mapping", "why_tests_cant": "all subsets of aliases", "anchors": ["schematics/transforms.py:import_loop", "schematics/types/base.py:BaseType._get_input_keys"]}
{"id": "C10", "title": "Fields are imported independently", "statement": "In a plain import the converted value (or error) of a field depends only on the input keys of this field: two inputs that agree on those keys give the same outcome for the field, whatever else they contain.", "quantifier": "every schema, every pair of raw mappings", "why_tests_cant": "relational property over pairs of inputs", "anchors": ["schematics/transforms.py:import_loop"]}
{"id": "C11", "title": "Trusted data survives unless overridden", "statement": "A trusted value for a field that is absent from the input is in the result unchanged, and is not replaced by a default; if the input has the field the converted input value wins. (Validations as well, for the data before the validate_<field> methods see it, C20. Without validation: fields without setters.)", "quantifier": "every schema, trusted data, raw mapping", "why_tests_cant": "universal", "anchors": ["schematics/transforms.py:import_loop"]}
{"id": "C12", "title": "partial_data of a failed import", "statement": "When an import fails, partial_data holds, for every field, exactly what the successful import of that field alone would have stored; for a failed scalar field without default nothing new is stored, and for a failed nested model its own partial data. (Validations as well: for the data before the validate_<field> methods see it, and for methods that only check also after it, where a field refused by its own method is removed. Without validation: fields without setters.)", "quantifier": "every schema and input", "why_tests_cant": "universal over failing subsets", "anchors": ["schematics/transforms.py:import_loop", "schematics/exceptions.py:DataError"]}
{"id": "C13", "title": "List conversion is element-wise", "statement": "Converting a list field succeeds iff the input is list-like (a list, a tuple, bytes, another sequence or iterable such as a model instance, which stands for its field names; not a string, a mapping, a number or a date) and every element converts; the result has the same length and order, and on failure the error is keyed by exactly the indices of the failing elements. Anything that is not list-like is refused with one message for the field itself.", "quantifier": "every element type and every list", "why_tests_cant": "unbounded length", "anchors": ["schematics/types/compound.py:ListType._convert"]}
{"id": "C14", "title": "Dict conversion is value-wise", "statement": "Converting a dict field succeeds iff every value converts; the result maps each coerced key to the converted value (last one wins when two keys coerce to the same key), and on failure errors are keyed by exactly the original keys of the failing values.", "quantifier": "every value type and mapping", "why_tests_cant": "unbounded size", "anchors": ["schematics/types/compound.py:DictType._convert"]}
{"id": "C15", "title": "The error tree mirrors the data tree", "statement": "For any depth of nested models, lists and dicts, each path in the error tree of an import or validation leads to an input location which fails by its own: it is missing though required, cannot be converted, is unknown in strict mode or, when validating, is refused by its validators, by the setter of the calculated field (when nothing else refuses the field), or by the validate_<field> method of the model it is a field of (whose report replaces the others of that field); and each such failing location is reported under its path, with its own messages.", "quantifier": "every schema, every input of any depth", "why_tests_cant": "unbounded depth", "anchors": ["schematics/transforms.py:import_loop", "schematics/validate.py:validate", "schematics/types/base.py:BaseType.validate", "schematics/types/compound.py:ListType._convert", "schematics/types/compound.py:DictType._convert", "schematics/types/compound.py:ModelType._convert"]}
{"id": "C16", "title": "Conversion is idempotent", "statement": "Converting already converted data gives the same data again: for every built-in scalar type (datetimes: see C53) and, for types that have it, through lists, dicts and models of any depth, if no alias of a field is the name of another field; for validation also if no field is polymorphic. (Both conditions are needed: counterexamples.)", "quantifier": "every type parameterisation and every value of any depth", "why_tests_cant": "unbounded values", "anchors": ["schematics/types/base.py", "schematics/types/compound.py"]}
{"id": "C17", "title": "Validated data satisfies all validators at every depth", "statement": "If validation succeeds, each value in the result, at every depth, passes every validator attached to its type (choices, length, range, size, custom), and if a list has min_size/max_size its length is within them. (For validate_<field> methods that only check, fields without setters, types which do not replace the whole validation procedure as unions do, trusted data that is not applied recursively, and conversion on.)", "quantifier": "every schema, input of any depth", "why_tests_cant": "unbounded depth", "anchors": ["schematics/types/base.py:BaseType.validate", "schematics/types/compound.py:ListType.check_length"]}
{"id": "C18", "title": "All validators of a field run and all messages are collected", "statement": "Validating a field runs, in order, the check of its choices, the checks built into its type and the validators given by the user; the reported messages are the concatenation of the messages of all failing validators up to and including the first one that raises StopValidationError; the value is accepted iff none fails. This holds whether or not validation also converts the value.", "quantifier": "every list of validators, every value", "why_tests_cant": "unbounded validator chains", "anchors": ["schematics/types/base.py:BaseType.validate"]}
{"id": "C19", "title": "Validation only restricts conversion", "statement": "If validation of an input succeeds with some data, then plain conversion of the same input succeeds with the same data (schemas without model-level validators mutating data): validators never alter values.", "quantifier": "every schema and input of any depth", "why_tests_cant": "relational over two executions", "anchors": ["schematics/transforms.py:validation_converter", "schematics/validate.py:validate"]}
{"id": "C20", "title": "Model-level validators", "statement": "During model validation every validate_<field> method whose field has a value at that time runs exactly once in field order, on the data as the methods before it left it; the fields whose method raises a validation error are reported under their external name (replacing other errors of that field) and removed from the data; all other errors are those of the import and all other data is what the methods left. Any other exception of a method ends the validation with it.", "quantifier": "every schema, validator set and data", "why_tests_cant": "universal over validator outcomes", "anchors": ["schematics/validate.py:_validate_model"]}
{"id": "C21", "title": "Nested model-level validators run", "statement": "When models are validated as objects with conversion on (m.validate(), M(data, validate=True)), a successful validation means that every nested model at any depth passed the model-level validators of its own class. (Not so in the functional API, where nested validators are skipped, nor with convert=False, as used by import_data(validate=True), where nested instances make validation crash: counterexamples.) (For validate_<field> methods that only check; editing methods are C20. Settable fields hold raw values and are exempt.)", "quantifier": "every nested schema", "why_tests_cant": "must hold for every nesting", "anchors": ["schematics/types/compound.py:ModelType._convert", "schematics/transforms.py:_mutate", "schematics/validate.py:validate"]}
{"id": "C22", "title": "Import terminates", "statement": "Importing any finite input terminates (no RecursionError given enough stack for the depth of the input) when no compound field has a compound default; a self-referencing model whose default is a dict never terminates.", "quantifier": "every schema incl. recursive, every input", "why_tests_cant": "termination for all inputs", "anchors": ["schematics/transforms.py:import_loop", "schematics/types/compound.py:ModelType._convert"]}
{"id": "C23", "title": "A whitelist role never leaks other fields", "statement": "Export with a whitelist role (or callable filter) produces only keys that are external names of whitelisted fields, for every model state.", "quantifier": "every schema, instance state, role", "why_tests_cant": "security claim over all states", "anchors": ["schematics/transforms.py:export_loop", "schematics/role.py:Role.whitelist"]}
{"id": "C24", "title": "A blacklist role removes exactly the listed fields", "statement": "Export with a blacklist role equals the unfiltered export with the listed fields left out.", "quantifier": "every schema, instance state, role", "why_tests_cant": "universal", "anchors": ["schematics/transforms.py:export_loop", "schematics/role.py:Role.blacklist"]}
{"id": "C25", "title": "Role lookup", "statement": "An unknown role name raises ValueError unless errors are disabled, in which case (and when no role is given) the 'default' role is used if defined and otherwise everything is exported; the same rule is applied at every nested model.", "quantifier": "every schema, role name, nesting depth", "why_tests_cant": "unbounded nesting", "anchors": ["schematics/transforms.py:export_loop"]}
{"id": "C26", "title": "Role algebra", "statement": "role + names and role - names are set union and difference on the fields a role has an opinion about and keep the filtering behaviour of the left operand; filtering decisions follow from set membership.", "quantifier": "every role and name set", "why_tests_cant": "universal", "anchors": ["schematics/role.py:Role"]}
{"id": "C27", "title": "Export levels decide presence by value class", "statement": "At an effective level L a field is exported iff: L is not DROP and (value present and non-empty) or (empty compound and L > NONEMPTY) or (None and L > NOT_NONE) or (undefined and L > DEFAULT, as None). The same rule, with the level of the element type, decides which elements of a list and which entries of a dict are exported; those that are keep their order and their keys, and at DEFAULT or above a list keeps its length.", "quantifier": "every schema, state and level", "why_tests_cant": "all combinations of value classes and levels", "anchors": ["schematics/transforms.py:export_loop", "schematics/common.py"]}
{"id": "C28", "title": "Raising the export level only adds keys", "statement": "If L <= L' (neither DROP) then each key exported at call level L is exported at call level L'.", "quantifier": "every schema, state, pair of levels", "why_tests_cant": "relational", "anchors": ["schematics/transforms.py:export_loop", "schematics/types/base.py:BaseType.get_export_level"]}
{"id": "C29", "title": "Export level precedence", "statement": "The effective level is the one passed to the export call if any, else the field's own, else the model's, else DEFAULT. A field's own level is its export_level argument if given, else 10 (DEFAULT) for serialize_when_none=True and 1 (NONEMPTY) for False; in the options of a model serialize_when_none wins over export_level.", "quantifier": "every combination", "why_tests_cant": "finite table lifted to all schemas", "anchors": ["schematics/types/base.py:BaseType.get_export_level", "schematics/types/base.py:BaseType._set_export_level"]}
{"id": "C30", "title": "Exported keys are distinct external names in field order", "statement": "The keys of an exported dict are the external names of exported fields, in declaration order, without duplicates when external names are distinct; when two fields share an external name the later one wins silently. A nested instance is exported by the rules of its own class, a nested mapping by those of the class the field names, at any depth.", "quantifier": "every schema and state", "why_tests_cant": "universal", "anchors": ["schematics/transforms.py:export_loop"]}
{"id": "C31", "title": "Primitive export is JSON-safe", "statement": "The result of to_primitive on converted data consists, at every depth, only of dict, list, str, int, float, bool and None values, if each scalar type used exports to such values. (Imported instances: for validate_<field> methods that only check, no trusted data, and no Undefined left in the values.)", "quantifier": "every schema and state of any depth", "why_tests_cant": "unbounded depth", "anchors": ["schematics/transforms.py:export_loop", "schematics/types/compound.py"]}
{"id": "C32", "title": "Export/import round trip", "statement": "For a schema whose external names do not collide and whose scalar types round-trip, M(m.to_primitive()) equals m for every converted instance m without None list items, at any nesting depth. (Both conditions are needed: swapped serialized names swap the values, a None item of a list of models comes back as an empty model.)", "quantifier": "every schema, every instance of any depth", "why_tests_cant": "unbounded", "anchors": ["schematics/transforms.py:import_loop", "schematics/transforms.py:export_loop"]}
{"id": "C33", "title": "Attribute read-after-write", "statement": "On every instance not created with lazy=True, after any history of calls: after m.f = v, m.f reads v (a dict assigned to a model field becomes an instance) and all other fields read as before. (Lazily created instances: the pending raw value shadows the assignment, counterexample.) (Fields without getter or setter.)", "quantifier": "every instance state reachable by any sequence of operations", "why_tests_cant": "histories", "anchors": ["schematics/models.py:FieldDescriptor", "schematics/models.py:ModelDict"]}
{"id": "C34", "title": "Attribute deletion", "statement": "del m.f succeeds iff f is pending or converted, or was valid before the first validation; if no validation has been run on the instance m.f is then undefined and all other fields read as before; otherwise m.f reads its last validated value. (So after a validation, deleting a validated field raises KeyError, and deleting a reassigned one makes the older validated value reappear: examples.) (Fields without getter or setter.)", "quantifier": "every reachable state", "why_tests_cant": "histories", "anchors": ["schematics/models.py:ModelDict.__delitem__", "schematics/models.py:FieldDescriptor.__delete__"]}
{"id": "C35", "title": "A failed import_data leaves the instance unchanged", "statement": "On every instance not created with lazy=True, after any history: if import_data (without validation) raises, the state of the instance is as before. (Lazily created instances lose their pending data: counterexample.)", "quantifier": "every state, every input", "why_tests_cant": "every failure point", "anchors": ["schematics/models.py:Model.import_data"]}
{"id": "C36", "title": "import_data updates exactly the given fields", "statement": "On every instance not created with lazy=True, after any history: after a successful import_data with a non-empty input, each field present in the input has the converted input value and each field not present keeps its value. (The empty input re-converts pending values: counterexample.) On a lazy instance the input is first completed with the pending raw data, the new keys winning. (import_data without validation and without defaults; fields without getter or setter.)", "quantifier": "every state, every input", "why_tests_cant": "universal", "anchors": ["schematics/models.py:Model.import_data"]}
{"id": "C37", "title": "import_data(validate=True) ignores new values", "statement": "After a successful m.import_data(new, validate=True) a field that had no value has the validated value given in new, but for a field that already had a value the input is not used at all: the result is the same for every input. (A user would expect the new value: counterexample.) (Fields that are not calculated, not assigned by a setter and not rewritten by a validate_<field> method; otherwise any class.)", "quantifier": "every state, input", "why_tests_cant": "universal", "anchors": ["schematics/models.py:Model.import_data", "schematics/transforms.py:_mutate"]}
{"id": "C38", "title": "Repeated validation is stable", "statement": "After a successful validate() a second validate() also succeeds and leaves all values unchanged, if conversions are idempotent. (Instances not created with lazy=True, validation with conversion and without a key mapping, validate_<field> methods that only check and do not read the instance.)", "quantifier": "every schema and state", "why_tests_cant": "histories", "anchors": ["schematics/models.py:Model.validate"]}
{"id": "C39", "title": "Valid data is never lost by a failed validation", "statement": "On every instance not created with lazy=True, after any history: if m.validate() fails, a non-model field named in the error reads its last validated value, and is undefined if it had none. (Not when defaults are applied, e.g. by serialize(), nor for nested models, whose validated instance is replaced by a partial dict: counterexamples.) A field not named in the error reads the result of validating the value it had. (Fields that are not calculated and not rewritten by a validate_<field> method, for the second part also not assigned by a setter; otherwise any class, in strict mode or not.)", "quantifier": "every state, every sequence of operations", "why_tests_cant": "histories", "anchors": ["schematics/models.py:Model.validate", "schematics/validate.py:validate"]}
{"id": "C40", "title": "Serialization contains only validated data", "statement": "On every instance not created with lazy=True, after any history: the value of each scalar, list or dict field in the output of a successful serialize() comes from data that passed validation (or from a field default or already valid data), never from a pending rejected value, and pending values are still readable afterwards. (Not for lazy instances or crashing validators, and a field without value gets its default: counterexamples.) (Fields that are not settable and not rewritten by a validate_<field> method; for the last part fields that are not calculated and not assigned by a setter; otherwise any class.)", "quantifier": "every state", "why_tests_cant": "histories", "anchors": ["schematics/models.py:Model.serialize"]}
{"id": "C41", "title": "The mapping interface is consistent", "statement": "keys(), items() and values() of an instance agree: keys are declared fields in order without duplicates and items = zip keys values. For a field without getter and setter that does not hold an explicit Undefined, keys(), in, [], get and attribute access agree. Unknown names raise UnknownFieldError and change nothing. (Not for serializables, for explicit Undefined, nor for len of lazy instances: counterexamples.)", "quantifier": "every state", "why_tests_cant": "histories", "anchors": ["schematics/models.py:Model"]}
{"id": "C42", "title": "Model equality is an equivalence relation", "statement": "== on instances of one model that have the same fields defined (also in nested models) is symmetric and transitive, and reflexive without NaN. (Symmetry and transitivity fail when one side has values for fields undefined on the other: counterexamples.) (Classes without calculated fields.)", "quantifier": "every pair/triple of instances", "why_tests_cant": "relational", "anchors": ["schematics/models.py:Model.__eq__"]}
{"id": "C43", "title": "Equality terminates on cyclic data", "statement": "Comparing two instances terminates for every finite object graph, including cyclic ones, and leaves no residue that changes later comparisons.", "quantifier": "every finite object graph", "why_tests_cant": "cyclic graphs of any size", "anchors": ["schematics/models.py:Model.__eq__"]}
{"id": "C44", "title": "IntType conversion preserves the number", "statement": "IntType accepts an int unchanged, a bool as 0/1, a float iff it is integral (none with strict=True), a string iff it is a decimal integer literal; the result is always an int numerically equal to the input; everything else raises ConversionError, except infinities, for which OverflowError escapes.", "quantifier": "every int, float, string", "why_tests_cant": "unbounded numbers", "anchors": ["schematics/types/base.py:NumberType.to_native", "schematics/types/base.py:IntType"]}
{"id": "C45", "title": "Numeric range bounds are inclusive and exact", "statement": "validate_range accepts a number v other than NaN iff min_value <= v <= max_value, exactly and whatever the number types (a missing bound does not restrict); a float NaN passes all int and float bounds, and a Decimal NaN makes it raise InvalidOperation.", "quantifier": "every value and bounds", "why_tests_cant": "unbounded", "anchors": ["schematics/types/base.py:NumberType.validate_range"]}
{"id": "C46", "title": "Decimal integers round-trip through text", "statement": "For every int n, importing str(n) into an IntType gives n, and StringType exports/imports of ints agree.", "quantifier": "every integer", "why_tests_cant": "unbounded", "anchors": ["schematics/types/base.py:NumberType.to_native", "schematics/types/base.py:StringType.to_native"]}
{"id": "C47", "title": "BooleanType accepts exactly its documented values", "statement": "BooleanType converts True/False, 'True','true','1', 'False','false','0', 1 and 0 to the corresponding bool and raises ConversionError for every other value; it is idempotent.", "quantifier": "every value", "why_tests_cant": "unbounded value space", "anchors": ["schematics/types/base.py:BooleanType.to_native"]}
{"id": "C48", "title": "StringType length bounds", "statement": "A string passes iff its length is within [min_length, max_length]; ints are cast to their decimal text, UTF-8 bytes are decoded, bools and everything else are rejected.", "quantifier": "every string and bound", "why_tests_cant": "unbounded", "anchors": ["schematics/types/base.py:StringType"]}
{"id": "C49", "title": "UUID round trip", "statement": "For every UUID u, importing its exported text gives u back; export text has the canonical 8-4-4-4-12 form; non-text, non-UUID input: see totality.", "quantifier": "all 2^128 UUIDs", "why_tests_cant": "domain too large", "anchors": ["schematics/types/base.py:UUIDType"]}
{"id": "C50", "title": "Date round trip", "statement": "For every valid date of the years 1000-9999, importing the exported ISO text gives the date back; YYYY-MM-DD text is accepted iff the calendar has that day; every date before the year 1000 is exported unpadded and refused on import.", "quantifier": "every date", "why_tests_cant": "all dates", "anchors": ["schematics/types/base.py:DateType"]}
{"id": "C51", "title": "DateTime round trip", "statement": "For every valid datetime with year >= 1000, any microsecond and either no zone or a whole-minute UTC offset below 24h, a DateTimeType field that accepts the value imports the exported text back to the same local time and the same offset, whatever tzd/convert_tz/drop_tzinfo; UTCDateTimeType does so for naive values. Every datetime before the year 1000 is exported unpadded and refused on import.", "quantifier": "every datetime", "why_tests_cant": "domain too large", "anchors": ["schematics/types/base.py:DateTimeType.from_string", "schematics/types/base.py:DateTimeType.to_primitive"]}
{"id": "C52", "title": "DateTime time-zone policy", "statement": "For every combination of tzd, convert_tz and drop_tzinfo, a successful conversion yields a value accepted by the field's own zone validation; 'require' never yields a naive result from naive text, 'reject' never accepts zoned input, 'utc' yields zoned values, drop_tzinfo yields naive ones.", "quantifier": "all policies and datetimes", "why_tests_cant": "policy x value product", "anchors": ["schematics/types/base.py:DateTimeType.to_native", "schematics/types/base.py:DateTimeType.validate_tz"]}
{"id": "C53", "title": "Converting to UTC preserves the instant", "statement": "With convert_tz the result denotes the same instant as the input and has offset zero; conversion is idempotent.", "quantifier": "every zoned datetime in range", "why_tests_cant": "domain too large", "anchors": ["schematics/types/base.py:DateTimeType.to_native", "schematics/types/base.py:TimestampType"]}
{"id": "C54", "title": "Timestamp round trip", "statement": "TimestampType exports the seconds since the epoch of the instant as a float (within half a microsecond); importing it returns the same instant to the microsecond, with IEEE double arithmetic, for instants within 2^33 seconds of the epoch. (Not outside: 2250-01-01T00:00:00.000001Z comes back as .000002Z, the end of year 9999 overflows.)", "quantifier": "every datetime", "why_tests_cant": "domain too large", "anchors": ["schematics/types/base.py:TimestampType"]}
{"id": "C55", "title": "Timedelta round trip", "statement": "A whole number n of units given to TimedeltaType is stored as exactly n units and exported as n for the precisions seconds to weeks, over the whole range of timedelta and with IEEE double arithmetic; seconds are truncated toward zero on export. For milliseconds and microseconds the exported number is n or the next one toward zero (43 ms are exported as 42). (The truncation: durations below 2^33 seconds; milliseconds and microseconds: fewer than 2^40 of them.)", "quantifier": "every integer and unit", "why_tests_cant": "unbounded", "anchors": ["schematics/types/base.py:TimedeltaType"]}
{"id": "C56", "title": "Decimal round trip", "statement": "Importing the exported text of any finite Decimal gives a decimal with the same sign, digits and exponent.", "quantifier": "every decimal", "why_tests_cant": "unbounded", "anchors": ["schematics/types/base.py:DecimalType"]}
{"id": "C57", "title": "Hash types accept hexadecimal literals of the digest length", "statement": "MD5Type/SHA1Type accept a string iff it has 32/40 characters and is a literal of int(value, 16); in particular every text of 32/40 hexadecimal digits. (Not only those: a 0x prefix, sign, underscores and surrounding blanks are admitted, counterexample.)", "quantifier": "every string", "why_tests_cant": "unbounded", "anchors": ["schematics/types/base.py:HashType.to_native"]}
{"id": "C58", "title": "IPv4Type accepts exactly dotted quads", "statement": "IPv4Type accepts a string iff it is four dot-separated decimal octets of 1-3 digits with value <= 255 (plus an optional final newline, because of '$').", "quantifier": "every string", "why_tests_cant": "unbounded strings", "anchors": ["schematics/types/net.py:IPv4Type"]}
{"id": "C59", "title": "IPv6Type accepts exactly RFC 3986 IPv6 addresses", "statement": "IPv6Type accepts a string iff it is 8 hex groups (last two optionally a dotted quad) with at most one '::' standing for at least one group (plus an optional final newline, because of '$').", "quantifier": "every string", "why_tests_cant": "unbounded strings", "anchors": ["schematics/types/net.py:IPv6Type"]}
{"id": "C60", "title": "IPAddressType accepts IPv6 addresses and texts starting with an IPv4 address", "statement": "IPAddressType accepts a string iff it starts with an IPv4 address or is an IPv6 address. (A user would expect only addresses: the alternation is not grouped, so any text may follow an IPv4 address; IPv4Type and IPv6Type refuse it.)", "quantifier": "every string", "why_tests_cant": "unbounded strings", "anchors": ["schematics/types/net.py:IPAddressType"]}
{"id": "C61", "title": "MACAddressType", "statement": "MACAddressType accepts a text iff it is in one of the five documented notations, with an optional final newline, or starts with twelve hexadecimal digits; exporting any address in a documented notation gives the colon form with the same digits, which is accepted and exported unchanged. (The trailing text and the newline are not documented: counterexamples.)", "quantifier": "every string", "why_tests_cant": "unbounded strings", "anchors": ["schematics/types/net.py:MACAddressType"]}
{"id": "C62", "title": "GeoPoint bounds", "statement": "A value converts to a geo point iff it is a list, tuple or dict of exactly two ints or floats, and is returned as given; it then passes validation iff -90<=lat<=90 and -180<=lon<=180, where a coordinate that is NaN always passes. The keys of a dict are ignored: its first two values count.", "quantifier": "every value", "why_tests_cant": "unbounded", "anchors": ["schematics/types/base.py:GeoPointType"]}
{"id": "C63", "title": "Multilingual text picks the first available locale", "statement": "Export returns the text for the first locale, in the order context locales then default locales, that the value has, and fails iff none is available. A locale name is accepted iff it is two letters, optionally followed by an optional colon, an underscore and two capitals (so 'en:_US' is accepted). A text that is an int makes validation raise TypeError.", "quantifier": "every value, locale lists", "why_tests_cant": "unbounded lists", "anchors": ["schematics/types/base.py:MultilingualStringType.to_primitive"]}
{"id": "C64", "title": "Enum round trip", "statement": "Every enum member exported by name imports back to itself, and aliases import to their member. With use_values a member imports back from its exported value iff the value is not the name or alias of another member and equals itself (is not NaN). Only members are ever returned; everything else is refused with ConversionError.", "quantifier": "every enum", "why_tests_cant": "all enums", "anchors": ["schematics/contrib/enum_type.py:EnumType"]}
{"id": "C65", "title": "Union resolves to the first accepting type", "statement": "A UnionType of members of different classes converts with the first member type that accepts the value, all earlier ones having refused with ConversionError, and raises ConversionError if all refuse so; validation and export use the same member; a resolver chooses the member it names. (Two members of one class collapse into one; a ValidationError of a member escapes; the union's own validators are ignored; conversion is not idempotent: counterexamples.)", "quantifier": "every list of member types and value", "why_tests_cant": "unbounded", "anchors": ["schematics/types/union.py:UnionType"]}
{"id": "C66", "title": "Polymorphic models resolve uniquely", "statement": "Without a claim function, a polymorphic field resolves data to a class iff exactly one entry of the candidate list claims the data, or none claims it and the class is the first candidate without a claim hook; the class is always a candidate. Failure is a plain exception that is not collected as a field error. (A class listed twice is ambiguous with itself; a falsy value is replaced by an empty model when validating; model instances are not checked on import.)", "quantifier": "every candidate list and claim outcome", "why_tests_cant": "all class hierarchies", "anchors": ["schematics/types/compound.py:PolyModelType.find_model", "schematics/util.py:get_all_subclasses"]}
{"id": "C67", "title": "Scalar conversion failures are always ConversionErrors", "statement": "For every input value, a scalar type's conversion returns a value or raises ConversionError/ValidationError, so that it can be aggregated, with exactly these exceptions: infinities for IntType, ints beyond the float range for FloatType, values that are not text, bytes, UUID, date or None for UUIDType, too large durations for TimedeltaType, and for DateTimeType too large numbers, bytes, and datetimes without a UTC time that are to be converted to UTC.", "quantifier": "every value", "why_tests_cant": "unbounded", "anchors": ["schematics/types/base.py"]}
{"id": "C68", "title": "Equality and hashing of error structures", "statement": "For error structures (FrozenDict/FrozenList of messages and nested errors) without bare text entries: two structures are equal iff they carry the same messages at the same places; equality is an equivalence; equal structures have equal hashes; the insertion order of a dict is irrelevant. A comparison cannot raise unless a field error faces a nested error dict with as many entries as it has messages. (With bare texts such as 'Rogue field' an error also equals a text whose characters are its messages, which has another hash, and a dict of its texts by index, and equality is not transitive; comparing a field error with a nested error of the same length may raise KeyError: counterexamples.)", "quantifier": "every error structure of any depth", "why_tests_cant": "unbounded", "anchors": ["schematics/datastructures.py:FrozenDict", "schematics/datastructures.py:FrozenList"]}
{"id": "C69", "title": "Error reports are plain data", "statement": "Building an error from any nesting of messages, lists and dicts, and reading it back with to_primitive(), preserves every message, its place and the structure; the report consists only of dicts, lists and strings; a message reads as its summary, followed by its info, if that is neither empty nor zero. An error built from several items has their messages in order, all of its own type, and the construction fails iff an item is neither a message nor an error of the same class.", "quantifier": "every error tree", "why_tests_cant": "unbounded depth", "anchors": ["schematics/exceptions.py:BaseError", "schematics/exceptions.py:CompoundError"]}
{"id": "C70", "title": "Context options are write-once and branch without side effects", "statement": "An option of a context can be set iff it has no value yet; defaults never overwrite; a branch differs from its parent only in the given non-None options, leaves the parent and all other contexts unchanged, is the parent itself iff nothing differs and fails iff an unknown option is given; the options in force during a call are those of the passed context and, only if it was never used, the arguments of the call; a used context ignores the arguments of later calls.", "quantifier": "every context and option set", "why_tests_cant": "universal", "anchors": ["schematics/datastructures.py:Context"]}
{"id": "C71", "title": "Field inheritance", "statement": "A class has exactly the fields and model-level validators of its body and of its bases; for each name the body wins, then the leftmost base that has it (not the method resolution order: see the diamond counterexample); fields are ordered by creation of their types; every field knows its name and class. An option named in the body wins, the others are those of the leftmost base; the roles of the body are added to those of the leftmost base (roles of several bases are not merged).", "quantifier": "every class hierarchy", "why_tests_cant": "all hierarchies", "anchors": ["schematics/models.py:ModelMeta"]}
{"id": "C72", "title": "Subclassing does not change the parent", "statement": "Whatever types and classes are defined later, an existing class keeps its field table, options and validators, and its field types keep their definition, name and owner; element types of lists/dicts change at most their owner, and the effective export level of list items is unchanged if fixed by the call or the element type or if the new class has the same export_level. (Otherwise it may change: the element type is shared and its owner switched to the subclass, so defining a subclass with another export level changes what the parent exports, counterexample.)", "quantifier": "every hierarchy", "why_tests_cant": "histories of class definitions", "anchors": ["schematics/types/base.py:BaseType.__deepcopy__", "schematics/types/compound.py:CompoundType._setup"]}
{"id": "C73", "title": "Mock values are accepted by their own field", "statement": "For every random outcome, the mock of a string, e-mail, hash, boolean, UUID, date, datetime (any zone options), geo point, IPv4/IPv6/MAC address or bounded non-negative integer field is accepted by the field's own conversion and validation, a mocked URL is accepted iff it has at most 73 characters (always so if the bounds do not ask for more), lists respect their length bounds, and mock creation is refused iff the bounds leave no possible length. Exceptions, also proved: a URL field with a minimum length of 80 refuses every mock of its own, no mock of a multilingual string field is ever accepted, and mocked numbers are never negative, so a field whose bounds allow only negative numbers is never mocked.", "quantifier": "every bound, option and random outcome", "why_tests_cant": "randomness", "anchors": ["schematics/types/base.py:get_range_endpoints", "schematics/types/base.py:fill_template", "schematics/types/base.py:BaseType.mock", "schematics/types/base.py:DateTimeType._mock", "schematics/types/net.py", "schematics/types/net.py:EmailType._mock", "schematics/types/net.py:URLType._mock"]}
{"id": "C74", "title": "Machine runs the pipeline in order", "statement": "After any sequence of triggers of any names, successful or not, the data of a contrib Machine is the original data after exactly the pipeline steps that lead to its present state; a trigger succeeds iff it is the next step and its transformation succeeds, otherwise state and data are unchanged; can(s) is true iff some trigger can lead to s.", "quantifier": "every trigger sequence", "why_tests_cant": "histories", "anchors": ["schematics/contrib/machine.py:Machine"]}
{"id": "C75", "title": "Nested mappings do not leak", "statement": "The import of a nested model depends only on the mapping meant for its field, and a deserialize mapping for the outer model without model_mapping is not applied to nested models. (It is when model_mapping has entries for other fields only: counterexample.)", "quantifier": "every mapping", "why_tests_cant": "universal", "anchors": ["schematics/transforms.py:import_loop", "schematics/datastructures.py:Context._branch"]}
{"id": "C76", "title": "A successful validate() has checked the current values", "statement": "On every instance not created with lazy=True, after any history: if m.validate() succeeds and there is something to validate, every field that had a value x afterwards reads the result of validating x with the field's own converter and validators; if it fails, this holds for every field not named in the error. (Fields that are not calculated, not assigned by a setter and not rewritten by a validate_<field> method; otherwise any class.) (For lazy instances with partial=True nothing is checked: counterexample.)", "quantifier": "every instance state reachable by any sequence of operations, every field", "why_tests_cant": "the state is the result of an arbitrary history of assignments, imports, deletions and validations", "anchors": ["schematics/models.py: Model.validate, Model._convert", "schematics/validate.py: validate"]}
{"id": "C77", "title": "get_mock_object terminates and fills fields", "statement": "For every set of model classes, also mutually recursive, and every random outcome, get_mock_object terminates; it succeeds whenever the bounds of all fields that are not overridden leave room for a value; the mock object has values for fields of its class only and for every field whose model class was not visited during the generation; at every depth a value has the type of its field, a required field never gets its default and an optional one gets it exactly when the random choice says so; overrides are used as given and overridden fields are never mocked. (Not all required fields are filled: a second required field of the same model class, required dicts, nested models of all but the first list item; and where MockCreationError is documented AttributeError comes out on Python 3; counterexamples.)", "quantifier": "every class graph, every random outcome", "why_tests_cant": "recursion over arbitrary class graphs, randomness", "anchors": ["schematics/models.py:Model.get_mock_object", "schematics/types/compound.py:ListType._mock", "schematics/types/compound.py:ModelType._mock"]}
{"id": "C78", "title": "EmailType accepts exactly mail addresses", "statement": "EmailType accepts a text iff it is a local part (non-empty runs of letters, digits and the marks -!#$%&'*+/=?^_`{|}~ separated by single dots, or a double-quoted text of printable characters and blanks in which quotes and backslashes are escaped), an @, and a domain (one or more labels of 1-63 letters, digits and hyphens with no hyphen at either end, and a top-level domain of 2-63 letters, separated by dots), optionally followed by one final newline. Any other text is refused with StopValidationError.", "quantifier": "every text, of any length and with any characters", "why_tests_cant": "the accepted language is infinite, and the matcher backtracks", "anchors": ["schematics/types/net.py:EmailType.EMAIL_REGEX", "schematics/types/net.py:EmailType.validate_email"]}
{"id": "C79", "title": "URLType accepts exactly HTTP URLs", "statement": "URLType (without verify_exists) accepts a text iff it is 'http' or 'https' in any case, '://', an optional user part and '@', a host, an optional port of 2-5 digits, optional path, query and fragment of allowed characters, optionally followed by one final newline; the host is a bracketed IPv6 address without embedded IPv4 address, an IPv4 address, or a name whose ASCII (IDNA) form has at most 253 characters and labels of 1-63 characters without hyphen at either end, apart from one final dot; with fqdn there must be two labels or more and the last a top-level domain. Any other text is refused with StopValidationError.", "quantifier": "every text, both settings of fqdn, every IDNA codec that yields non-empty texts without newlines", "why_tests_cant": "infinite language; which groups take part in the match depends on backtracking order", "anchors": ["schematics/types/net.py:URLType.URL_REGEX", "schematics/types/net.py:URLType.valid_url", "schematics/types/net.py:URLType.validate_"]}
{"id": "C80", "title": "What a type class inherits", "statement": "A class derived from BaseType runs, for each of its instances, exactly the validate_… functions written in the class or in a type class it derives from, each name once: those of the bases first (rightmost base first), then the new ones of its own body, a repeated name keeping its first place; validate_… functions of plain mixins do not run. The function that runs under a name is never one that a class in between overrides, and a class's own function wins. A message for a key is the one given to the constructor, else the one in the class body, else the one of the leftmost base that has one. Defining further classes changes nothing for existing ones. (Not true: that messages follow Python's method resolution order in a diamond.)", "quantifier": "all sequences of class statements with multiple inheritance and mixins, all validator names, all message keys", "why_tests_cant": "class hierarchies are unbounded and the order of merging matters; tests fix a few hierarchies", "anchors": ["schematics/types/base.py:TypeMeta", "schematics/types/base.py:BaseType.__init__"]}
{"id": "C81", "title": "Validators with and without a context parameter", "statement": "A validator function, wherever it is given (validators=[…], validate_… of a type, validate_… of a model), is called with the context exactly when it declares a parameter for it: a plain function with as many parameters as there are arguments before the context is called without it, one with more is called with it, and whatever it receives is those arguments in order; a function declaring only *args never gets the context; given by keyword the context reaches a parameter named context and is dropped otherwise. (Not true of bound methods and callable objects, whose self is counted, nor of a validator prepared twice, which loses a proper argument.)", "quantifier": "all parameter lists (number, defaults, *args, bound or not), all argument lists, all contexts", "why_tests_cant": "the signatures of user functions are unbounded; tests use a handful", "anchors": ["schematics/validate.py:prepare_validator"]}
{"id": "C82", "title": "Subclasses as candidates of polymorphic fields", "statement": "The subclasses considered for a polymorphic field are exactly the classes that derive from the listed model, at any depth, with one entry per inheritance path; no class is listed twice iff no class is reachable on two paths, in particular with single inheritance, where the model chosen is the only one of the model and its subclasses whose hook claims the data. A class that derives from the model on two paths can never be chosen by its own hook: the input is reported as ambiguous.", "quantifier": "all class hierarchies, all data, all claim hooks", "why_tests_cant": "class hierarchies are unbounded; tests use trees of depth two", "anchors": ["schematics/util.py:get_all_subclasses", "schematics/types/compound.py:PolyModelType._get_candidates", "schematics/types/compound.py:PolyModelType.find_model"]}
{"id": "C83", "title": "Settable calculated fields in validation", "statement": "When input is validated for a model instance, the setters of calculated fields run first, in field order, each on the converted value the input gives under the field's own name; validation then goes on with the attributes they assigned in place of what the input had for them, exactly as for a class whose setters do nothing. A value that does not convert, and an error raised by a setter, are reported under the external name of the field; AttributeErrors are ignored; any other exception ends the validation. On a plain dict the assignments have no effect, but the errors are reported.", "quantifier": "every schema, set of setters, instance and input", "why_tests_cant": "all combinations of assigning, refusing and crashing setters", "anchors": ["schematics/transforms.py:_mutate", "schematics/types/serializable.py:Serializable.__set__", "schematics/iteration.py:atom_filter.has_setter"]}
{"id": "C84", "title": "Exactly which texts are dates and datetimes", "statement": "DateType (without formats) reads a text iff it is a four-digit year, '-', a month, '-', a day (month and day with or without a leading zero, the day also with a leading blank), with nothing before or after, and the calendar has that day; DateTimeType (without formats or parser) reads a text iff it is YYYY-MM-DD, 'T' or a blank, hh:mm, optionally :ss with an optional fraction of one to six digits after a point or comma, optionally Z or an offset +hh, +hhmm or +hh:mm (plus, hyphen or minus sign), optionally a final newline, and the calendar has that moment, or if it is a number, which is the seconds since 1970-01-01 UTC. The value is the moment named, treated as the same datetime object would be (except that a naive text is refused where a zone is required); every other text is a ConversionError. No text is both a number and a datetime.", "quantifier": "every text (any length, any Unicode digits), every combination of tzd, convert_tz and drop_tzinfo", "why_tests_cant": "The set of texts is infinite; tests sample a few well-formed and malformed ones and cannot show that nothing else is accepted nor that every accepted text gives the moment it names.", "anchors": ["schematics/types/base.py:DateType.to_native", "schematics/types/base.py:DateTimeType.REGEX", "schematics/types/base.py:DateTimeType.from_string", "schematics/types/base.py:DateTimeType.to_native"]}
{"id": "C85", "title": "Fields added to an existing class; type objects used twice", "statement": "cls._append_field(name, type) gives this class, and no other existing class (not even a subclass), a field: at the end, or in place of the field of that name; classes derived from it later have the field too. In any history of type creations, class definitions and additions in which no type object is used twice, every field's type object bears the field's name and class, so each field is read from its own name first. A type object used for several attributes bears the name of the last one set up: all these fields are read from that one key (counterexample: a = b = IntType()).", "quantifier": "every history of class definitions and additions", "why_tests_cant": "histories of unbounded length", "anchors": ["schematics/models.py:Model._append_field", "schematics/schema.py:Schema.append_field", "schematics/types/base.py:BaseType._setup", "schematics/types/base.py:BaseType.get_input_keys"]}
{"id": "C86", "title": "Models referred to by name", "statement": "ModelType('Node') as a field, or as an element type, of a class called Node (or of a class of that name that inherits the field while it is unresolved) refers to that class; any other name stays unresolved at definition. Once resolved a reference never changes, and in every history it refers to a class of the given name. Inherited fields keep the class they refer to, so a subclass of Node keeps Node as the model of its children. Element types are shared between a class and its subclasses, so the first class of the name resolves them for all (counterexample: two classes called Node that inherit from one mixin).", "quantifier": "every history of class definitions and additions", "why_tests_cant": "histories of unbounded length", "anchors": ["schematics/types/compound.py:ModelType._setup", "schematics/types/compound.py:ModelType.model_class", "schematics/models.py:ModelMeta.__new__"]}
{"id": "C87", "title": "Iterating over the atoms of a model", "statement": "atoms(schema, mapping, keys, filter) yields one atom per field in schema order; name and field as asked for, the value the mapping has under the field's name, Undefined if it has none, if the lookup raises or if values are not asked for; a filter only selects; an unknown key raises TypeError. instance.atoms() gives what reading each attribute gives, and these are the values an export starts from. has_setter and not_setter are complementary; without the field key nothing has a setter.", "quantifier": "every schema, mapping, key tuple and filter", "why_tests_cant": "universal over schemas and mappings", "anchors": ["schematics/iteration.py:atoms", "schematics/iteration.py:atom_filter", "schematics/models.py:Model.atoms"]}
{"id": "C88", "title": "Options of calculated fields", "statement": "serializable with a type class (or none) makes a new type object with exactly the given options and changes no other type object. With a type instance it uses that very object: the given options are set on it, its others stay, except that its export level is always set anew from the arguments, so a level given to the instance is lost (counterexample). Wrong arguments raise TypeError and change nothing.", "quantifier": "every argument, option set and heap of type objects", "why_tests_cant": "universal over options and shared objects", "anchors": ["schematics/types/serializable.py:serializable", "schematics/types/base.py:BaseType._set_export_level"]}
{"id": "C89", "title": "Unions of compound types", "statement": "A UnionType keeps one member per type class: the last one given, at the place of the first. Conversion, validation and export are those of the first member which does not decline with ConversionError, whatever that member then does. A ListType member declines exactly the values that are not list-like, a DictType member exactly the non-mappings, a ModelType member exactly what is neither a mapping nor an instance of its model, a PolyModelType member what is neither a mapping nor of an allowed class, and only when not validating; a bad item or field never makes the union try the next member. An instance reaching a ModelType member cannot be exported (AttributeError). A resolver naming a class uses that member alone.", "quantifier": "every list of members of any field type, value, context and class table", "why_tests_cant": "members, values and nested schemas are unbounded", "anchors": ["schematics/types/union.py:UnionType", "schematics/types/compound.py:ListType._convert", "schematics/types/compound.py:ModelType._convert"]}
{"id": "C90", "title": "Concurrent comparisons do not disturb each other", "statement": "Any number of threads may compare instances (also the same, also cyclic ones) at the same time, although __eq__ keeps its memo in one set shared by all threads: under every interleaving of the operations on that set, each thread gets for each comparison the result it gets in a program with one thread; it finishes after a number of its own operations that does not depend on the others; and once no thread is comparing the set is empty.", "quantifier": "every object graph, number of threads, sequence of comparisons per thread and schedule", "why_tests_cant": "schedules cannot be enumerated by tests", "anchors": ["schematics/models.py:Model.__eq__"]}
{"id": "C91", "title": "Unexpected exceptions roll back to the last validation", "statement": "On every instance not created with lazy=True, after any history: take the state right after a validate() call, then any assignments and imports. If validate() (also inside serialize()) now ends with an exception other than DataError, raised by a custom validator, getter or setter at whatever point, every field reads as right after the earlier validate(): pending values are dropped and nothing of the aborted run is visible. An assignment or deletion that raises anything leaves the instance as it was.", "quantifier": "every class, history, pending operations and exception at every point of a validation", "why_tests_cant": "ranges over all crash points and histories", "anchors": ["schematics/models.py:Model.validate", "schematics/models.py:Model.serialize", "schematics/models.py:FieldDescriptor"]}
{"id": "C92", "title": "Instances do not share state, and the caller's dicts are not changed", "statement": "Any number of model instances, created from and filled with the same dicts of a program, behave as if every instance and every dict were a separate value: a call on one instance changes no other instance and no dict of the program, and a later change the program makes to one of its dicts changes no instance. The exceptions are dicts handed over as lazy=True input or as trusted_data, which the instance keeps: those can be changed by validate(), import_data(), serialize() and del, and are shared by all instances they were given to.", "quantifier": "all programs: any number of classes, instances and dicts, any interleaving of constructor calls, method calls and changes of the program's own dicts, successful or raising", "why_tests_cant": "Sharing shows up only in particular interleavings of calls on several objects; tests try a few, the claim is about all programs.", "anchors": ["schematics/models.py:ModelDict", "schematics/models.py:Model.__init__", "schematics/models.py:Model._convert", "schematics/models.py:Model.validate", "schematics/models.py:Model.import_data", "schematics/models.py:Model.serialize", "schematics/transforms.py:_mutate"]}
{"id": "C93", "title": "Converted values are made of new containers", "statement": "Converting a value changes no object: not the input, not anything inside it, not a field's default. If no leaf type of the schema hands back a mutable object as it is, every list, dict and model instance in the converted value is new: none of them is reachable from the input, from a default object, or from an earlier result, and none occurs twice inside the value even if the input refers to one object from several places. So two instances never share a mutable default of a ListType, DictType or ModelType field; whatever the program changes in place later - the input, the default, another result - is not seen in the value, and changing the value is not seen elsewhere. Exceptions: BaseType and other types that return their argument, an instance given to a PolyModelType field outside validation, and the partial data of a failed conversion, which hold the default object itself.", "quantifier": "all schemas (nested and recursive models, lists, dicts), all import options, all object graphs as input (shared and cyclic), all later programs of conversions, exports and in-place changes", "why_tests_cant": "Aliasing appears only for particular shapes of object graphs and particular later changes; tests look at a few.", "anchors": ["schematics/types/compound.py:ListType._convert", "schematics/types/compound.py:DictType._convert", "schematics/types/compound.py:ModelType._convert", "schematics/types/compound.py:PolyModelType._convert", "schematics/transforms.py:import_loop", "schematics/types/base.py:BaseType.default"]}
{"id": "C94", "title": "Exported data are a snapshot", "statement": "Exporting a value changes no object. If exporting a leaf value hands back no mutable object as it is, every list and dict in the exported data is new and occurs once: none is reachable from the instance or from anything else that existed before. So changing the exported data changes no instance, and the exported data stay what they were whatever happens to the instance later. Exception: BaseType and other types that return their argument export the instance's own object.", "quantifier": "all schemas, all object graphs as instances (shared and cyclic), all export levels, all later programs of conversions, exports and in-place changes", "why_tests_cant": "Aliasing appears only for particular shapes of object graphs and particular later changes; tests look at a few.", "anchors": ["schematics/transforms.py:export_loop", "schematics/types/compound.py:ListType._export", "schematics/types/compound.py:DictType._export", "schematics/types/compound.py:ModelType._export", "schematics/types/compound.py:PolyModelType._export"]}
{"id": "C95", "title": "Custom field converters see exactly the permitted fields", "statement": "Model.export(field_converter=f) calls the converter's pre once before anything of a model is read, then the converter exactly once for each field of that model that the role in force lets through, whose export level is not DROP and whose value is neither None nor Undefined, in declaration order, and post once with the finished dict; never for any other field, at any nesting depth, whatever the converter does; elements of lists and dicts are not passed to it, the fields of models inside them are. The exported entry of a field is what the converter returned for it, left out or replaced by None by the same level rules as always, and the result is what post returned. If a call raises, nothing further is called, in particular not post. A converter that exports each field as usual and only observes gives exactly the result, or exception, of to_native/to_primitive. Exceptions to what one might expect: a converter that returns a value without a length for a compound field makes the export raise TypeError; export() without the argument, or with a callable that is not a plain function, raises AttributeError.", "quantifier": "all converters with arbitrary effects and exceptions, all schemas and nestings, all instances, roles and export levels", "why_tests_cant": "A converter is arbitrary code of the caller, run at arbitrary depth; that it is called for no hidden field and in no other order must hold for every converter, schema and instance, not for the identity converters that the tests use.", "anchors": ["schematics/transforms.py: export_loop, Converter, BasicConverter, ExportConverter", "schematics/models.py: Model.export", "schematics/types/base.py: BaseType.export", "schematics/types/compound.py: ListType._export, DictType._export, ModelType._export, PolyModelType._export"]}
{"id": "C96", "title": "Exports terminate", "statement": "Exporting data whose readable nesting depth is d, with classes - however recursive - whose fields nest lists and dicts at most T levels, makes at most (d+1)(T+1) nested calls; so every export of every finite instance without calculated fields ends, with a result or an ordinary exception, and an export that ends has the same outcome under every larger recursion limit. No built-in type exceeds the recursion limit by itself. The exception: a calculated field that creates a new instance of its own model makes every export endless.", "quantifier": "all class tables, recursive ones included, all instances and mappings of any size, all export contexts, all recursion limits", "why_tests_cant": "Termination for recursive schemas and unbounded data is a statement about all inputs; a test shows it for one instance.", "anchors": ["schematics/transforms.py: export_loop", "schematics/types/compound.py: ListType._export, DictType._export, ModelType._export, PolyModelType._export", "schematics/types/serializable.py: Serializable", "schematics/iteration.py: atoms"]}
{"id": "C97", "title": "Default factories are called exactly when needed", "statement": "A callable default is called once for each field that has neither input under any of its names nor trusted data, in field order, and only if defaults are applied; it is not called for supplied fields, except after a failed conversion, when it is called (again) for the replacement value. Each import calls anew, so imports share no default object. A factory that always returns the same value is indistinguishable from that value in every import and validation, nested ones included. Whatever a factory raises - also a ConversionError or DataError - ends the import at once and comes out as it is, without the field's name and without the errors collected so far; only validation takes a DataError of a factory for its own.", "quantifier": "all schemas, inputs, contexts (trusted data, mappings, partial, strict, defaults on or off), all factories with arbitrary effects and exceptions, all field converters with effects, all nesting depths", "why_tests_cant": "Which calls happen depends on input, trusted data and conversion outcomes of every field; a test observes one combination, and the absence of further calls is a statement about all of them.", "anchors": ["schematics/types/base.py: BaseType.default", "schematics/transforms.py: import_loop", "schematics/validate.py: validate"]}
{"id": "C98", "title": "Date and datetime formats of the user", "statement": "With user formats built from %Y %y %m %d %H %M %S %f %z %%, characters and white space: the text that a DateTimeType exports with serialized_format=F is read back with F so that every component F shows comes back and every other one is that of 1900-01-01 00:00:00 without zone (ValueError if that date does not exist); if F shows every component that is not zero, is one of formats and no earlier format reads the text, import gives back the very value under every tzd/convert_tz/drop_tzinfo. Whatever the text, it is accepted only if it consists of one piece for each piece of the format, each saying what the value has (decimal numbers of the right length, a fraction of one to six digits, an offset, the very characters up to case, white space for white space), and an accepted value is a valid datetime, with an offset below a day, whose hidden components have the default. Conversely, every text with ASCII digits that spells a valid datetime in this sense is read with these components, provided what follows a piece of variable width cannot be taken for a part of it (such a break is needed: \"111\" for %m%d is 1 November even if 11 January was meant). The first format that reads a text decides, a text that none reads is refused with ConversionError, and DateType() equals DateType(formats=[\"%Y-%m-%d\"]). DateType always exports with %Y-%m-%d, so a DateType with other formats may refuse or misread its own export.", "quantifier": "all formats over these directives (after %z nothing that could be read as part of the offset; not both %Y and %y), all lists of formats, all valid datetimes from year 1000 on (with a zone if the format shows it), all texts, all zone settings", "why_tests_cant": "Infinitely many formats, values and texts; strptime is a backtracking match in which one piece may swallow the start of the next.", "anchors": ["schematics/types/base.py:DateType.__init__", "schematics/types/base.py:DateType.to_native", "schematics/types/base.py:DateType.to_primitive", "schematics/types/base.py:DateTimeType.__init__", "schematics/types/base.py:DateTimeType.to_native", "schematics/types/base.py:DateTimeType.to_primitive"]}
{"id": "C99", "title": "Model references by dotted name", "statement": "ModelType(\"pkg.mod.Model\") denotes the object reached from the longest importable prefix of the name through the remaining parts as attributes (dots and colons alike); if no prefix can be imported or an attribute is missing ImportStringError is raised, any other exception of the import passes. The name is resolved when the class is first needed, not when the field is declared: failed uses change nothing, the result is what the name denotes at the first successful use, and from then on the reference gives that class for ever, whatever is imported, rebound, subclassed or used later. A reference to a class itself denotes that class for ever; the name of a reference never changes. A reference that carries the name of the model being created denotes that model. The copy a subclass gets of an unresolved reference is resolved on its own; a copy of a resolved one denotes the same class. A module hides a class of the same dotted name, and the bare name of another model is never found.", "quantifier": "all names, all states of the import system (changing arbitrarily between uses), all histories of declaring, copying, setting up and using references", "why_tests_cant": "Ranges over all module trees and all interleavings of class creation, imports, failed and successful uses.", "anchors": ["schematics/util.py:import_string", "schematics/types/compound.py:ModelType.model_class", "schematics/types/compound.py:ModelType._setup", "schematics/types/base.py:BaseType.__deepcopy__"]}
{"id": "C100", "title": "Model options, private options and their inheritance", "statement": "A class statement whose Options name only known options (namespace, roles, export_level, serialize_when_none, export_order, and names with one leading underscore) gives the class exactly these options: each one as its body says (serialize_when_none beats export_level), else as the leftmost base has it; each role and each private option of the body, else of the leftmost base; options of other bases are lost as a whole. Nothing that existed before is changed, in any history of class statements (failing ones included) and changes of role dicts. Any other public name raises TypeError. A class with roles of its own gets a new dict; without, it shares the dict of its leftmost base, so that a role added to one is a role of the other. A model whose options have another public attribute, by Options.extras or by its own __optionsclass__ (which is not inherited), cannot be subclassed at all; an extras in the body drops the private options beside it. A member whose name starts with two underscores has no effect; an extras in the body that is no dict counts as {} if it is false and raises AttributeError otherwise.", "quantifier": "every class hierarchy, every set of option members, every history of class statements and changes of role dicts", "why_tests_cant": "All hierarchies and all histories; sharing shows only when options are changed after subclasses were made.", "anchors": ["schematics/models.py:ModelMeta._read_options", "schematics/models.py:ModelMeta.__new__", "schematics/schema.py:SchemaOptions"]}
{"id": "C101", "title": "Errors do not change after they are raised", "statement": "An error keeps its keys, nesting and message objects for ever, whatever is later done to the dict, lists or errors it was built from. An error made of texts keeps its report (to_primitive) and is in the language of the translator registered when it was raised, whatever translators are registered later and whatever else happens, unless the program writes to one of its message objects or to the report it was given. Its contents, and hence the errors it is equal to, stay the same as long as none of its messages is reused in an error of the other kind. to_primitive() returns one object for ever; once hash(error) has returned a number it returns it for ever; if no message is written to or reused in an error of the other kind, hashes are those of the contents, so that equal errors have equal hashes at any time. CompoundError and DataError replace compound errors in the dict they are given by their errors and touch nothing else.", "quantifier": "all worlds of messages, lists, dicts, errors and reports, all histories of creations, modifications, reports, hashes and translator registrations before and after the error is raised", "why_tests_cant": "the error may be built in any state of shared mutable objects and anything may happen to these afterwards, in any order", "anchors": ["schematics/exceptions.py:BaseError", "schematics/exceptions.py:ErrorMessage", "schematics/exceptions.py:FieldError", "schematics/exceptions.py:CompoundError", "schematics/datastructures.py:FrozenDict", "schematics/datastructures.py:FrozenList", "schematics/translator.py:LazyText", "schematics/translator.py:Translator"]}
{"id": "C102", "title": "When user code is called", "statement": "During convert and validate, user code - callable defaults, conversions, overridden validate methods, validators, validate_<field> methods, setters - is called at most once per place, and in a fixed order whatever it does: setters first (each after the conversion of its input), then the fields in order, then the validate_ methods; for a field, the default, then the conversion, then the validators in order, then the default again as replacement of a failed value; items of lists and dicts in order. For every field of a scalar type that has a value in the input, its conversion and then its validators are called - on the converted value, until one raises something other than ValidationError - and nothing else, whatever other fields do. If any call made for the conversion of a value raises, no validator of that value is called. An exception of user code that is not one of schematics' own ends the run at once and reaches the caller. If any call raises anything, the run raises. validate calls what convert calls and then exactly the validate_ methods of the fields that have a value. If results of user code depend on its arguments only, its effects change nothing in the outcome. (Exceptions: AttributeError in the setter phase is swallowed; DataError({}) of a default counts as success of validate.)", "quantifier": "all schemas, inputs, contexts and nesting depths; all user code, with arbitrary state, arbitrary results and arbitrary exceptions at every call", "why_tests_cant": "user code may keep state and answer differently at every call; the claims are about every interleaving of its results and exceptions at any depth", "anchors": ["schematics/transforms.py:import_loop", "schematics/transforms.py:_mutate", "schematics/validate.py:validate", "schematics/validate.py:_validate_model", "schematics/types/base.py:BaseType.validate", "schematics/types/base.py:BaseType.default", "schematics/types/compound.py:ListType._convert", "schematics/types/compound.py:DictType._convert", "schematics/types/compound.py:ModelType._convert"]}
{"id": "C103", "title": "A mock object is a legal object", "statement": "If the mocks of the scalar types, the defaults, the choices and the overrides are acceptable to their own types, and no bounds leave no room, Cls.get_mock_object() always returns: the constructor it ends with, for the object itself and for every object mocked inside it, never rejects what was mocked, whatever the random outcomes and however the classes refer to one another. Every field of the object has a value; an overridden field has the override, converted. The object passes validate(partial=True), validation changes none of its attributes, and validate() without partial passes if and only if every required field is filled at every depth. Each value comes from the override, from the default (only for optional fields, or where the field leads to a model class), from the choices, or from a mock of its type. Where bounds leave no room or choices are empty, the exception is AttributeError or IndexError, never an error of conversion.", "quantifier": "all programs of finitely many model classes (also recursive), all random outcomes, overrides, validation options, stack sizes", "why_tests_cant": "a test sees a few random outcomes of a few classes; the claim is about every outcome of every draw, for every schema, through the interplay of mocking, construction and validation", "anchors": ["schematics/models.py: Model.get_mock_object", "schematics/types/base.py: BaseType.mock", "schematics/types/compound.py: ListType._mock, ModelType._mock", "schematics/transforms.py: import_loop", "schematics/validate.py: validate"]}
{"id": "C104", "title": "When user code is called during an export", "statement": "During to_native, to_primitive and serialize, user code - getters of calculated fields, role functions, to_native and to_primitive of scalar types - is called at most once per place and in a fixed order, whatever it does: the fields of a model in order; for a field first its getter, then the role function with the field's name and the value read, then the conversion of its value; items of lists and dicts in order. If the export succeeds, every getter of every exported instance was called exactly once, at every depth - also the getters of fields that the role leaves out or whose export level is DROP. Of a field that is left out or dropped nothing is exported: no conversion, getter or role function inside its value is called; nothing is called without a reason. A getter that raises counts as having no value. An exception of a role function or of a conversion ends the export at once and reaches the caller; an export raises nothing else except the exceptions of the engine itself. If the results of user code depend on its arguments only, its effects change nothing in the outcome; in general two exports of the same data take the same course and have the same outcome unless a call of the same code with the same arguments at the same place has different results.", "quantifier": "all schemas, data, roles, levels and nesting depths; all user code, with arbitrary state, arbitrary results and arbitrary exceptions at every call", "why_tests_cant": "Tests fix a few getters and roles; the claim is about every sequence of calls that arbitrary stateful user code can produce, including exceptions at any call.", "anchors": ["schematics/transforms.py:export_loop", "schematics/iteration.py:atoms", "schematics/types/serializable.py:Serializable.__get__", "schematics/types/base.py:BaseType.export", "schematics/types/compound.py:ListType._export", "schematics/types/compound.py:DictType._export", "schematics/types/compound.py:ModelType._export"]}
{"id": "C105", "title": "Resolving a model reference in several threads", "statement": "A ModelType given the import path of its class looks the class up on first use and remembers it. When several threads use the same field at the same time, and model classes which carry the name are being set up meanwhile, then in every interleaving: a use returns an object that was remembered before, that the import path denoted at some moment of the schedule, or the owner class carrying the name, never anything else and never None; an exception is the one that the lookup gave in the same thread. If the path denotes the same class all the time, all uses agree on it. Once a class is remembered and no use is under way, it stays, and every later use returns it. A use is finished after at most three steps of its own thread, whatever the other threads do, and a use that is not interrupted does what a single-threaded use does. Without the assumption that the path denotes one class, uses may disagree, and the remembered class may be replaced.", "quantifier": "all numbers of threads, all schedules of their steps, all states of the import system at every step, all earlier states of the reference", "why_tests_cant": "the interleavings of reads and writes of the remembered class with the import system cannot be enumerated, and a test sees one schedule", "anchors": ["schematics/types/compound.py: ModelType.model_class", "schematics/types/compound.py: ModelType._setup", "schematics/util.py: import_string"]}
{"id": "C106", "title": "One context in several concurrent calls", "statement": "A context object handed to an import or an export whose options are not yet filled in is filled in by that call. When the same object is handed to several calls at the same time, then in every interleaving: if all calls have the same arguments, every call reads for every option the value it would read if it had run alone; an option that the caller had put into the context keeps its value and all calls read it; whatever the arguments, the value read for an option comes from the context or from the arguments of one of the calls, and an option which all calls have an argument for is never missing. Once the context is filled in and no call is between its test and its write, it does not change any more. If the calls have different arguments, one call may read two different values of one option.", "quantifier": "all numbers of calls, all schedules of their steps, all arguments, all earlier contents of the context", "why_tests_cant": "a test sees one interleaving of the calls, and the window between the test and the write is a few instructions long", "anchors": ["schematics/transforms.py: import_loop", "schematics/transforms.py: export_loop", "schematics/datastructures.py: Context._setdefaults"]}
{"id": "C107", "title": "Calls that are interrupted", "statement": "A call on an instance — assigning or deleting an attribute, validate(), import_data(), serialize() — may be ended by a KeyboardInterrupt or another exception raised by a signal handler at any of its steps, also inside its except and finally blocks and more than once. A call that returns or raises an exception of its own was not interrupted and leaves the instance as it does without interrupts. After an interrupted assignment, deletion or import_data() without validation every field of an eagerly created instance (not calculated, not assigned by a setter) reads what it read before or what it would read after the completed call; after an interrupted validate(), serialize() or validating import_data() it may also read its last validated value, the one the call would have left as validated, or the imported value — never anything else. The layer of validated data is never torn: after any history of interrupted calls it is what completed validations and deletions made of it, and every value in it was there at first, passed the field's validation, or is the field's default. The next validate() (not partial) that returns or raises DataError makes the instance whole again. What is not guaranteed: an interrupted validate() or serialize() may lose pending values, a later assignment may be invisible until the next validate(), and a lazily created instance may lose its raw data or read it for ever.", "quantifier": "all classes, all eagerly created instances after any history, all calls, all schedules of interrupts at every step, all later histories of interrupted calls", "why_tests_cant": "an interrupt hits one instruction in a run that has thousands; a test cannot aim at every one of them, nor at every combination in a history of calls", "anchors": ["schematics/models.py: ModelDict", "schematics/models.py: FieldDescriptor", "schematics/models.py: Model.validate", "schematics/models.py: Model.import_data", "schematics/models.py: Model._convert", "schematics/models.py: Model.serialize", "schematics/transforms.py: _mutate"]}
{"id": "C108", "title": "Fields read by other threads while a call runs", "statement": "While one thread assigns or deletes an attribute of an instance or runs validate(), import_data() or serialize() on it, other threads may read its fields; the steps of a read (looking for the key in each layer, then fetching the value from each layer) may fall on any moments of the call. On an instance that was not created lazily, a read of a field that is neither calculated nor assigned by a setter gives what the field contains before the call or after it; during import_data(validate=True) also what was imported, during serialize() also what its validation leaves as validated; never anything else. If all of these are values, the read returns one of them and raises nothing. While a field is assigned or deleted, all other fields read exactly as before. If the field has a value at one time and none at another, the read may end with a KeyError instead of an AttributeError. What is not guaranteed: two fields may be seen in states that do not belong together, and fields of a lazily created instance may seem to be missing.", "quantifier": "all classes, all eagerly created instances after any history, all calls, all fields, all interleavings of the steps of a reader with the steps of the call", "why_tests_cant": "the outcome depends on where among the steps of the call each of the twelve steps of the read falls; a test cannot enumerate the interleavings, and must not depend on the scheduler", "anchors": ["schematics/models.py: FieldDescriptor.__get__", "schematics/models.py: ModelDict", "schematics/datastructures.py: ChainMap", "schematics/models.py: Model.validate", "schematics/models.py: Model.import_data", "schematics/models.py: Model.serialize"]}
{"id": "C109", "title": "Several threads assign and read fields of one instance", "statement": "When several threads assign and read (not calculated) fields of one model instance and do nothing else with it, the instance behaves as if every assignment and every reading happened at one instant between its beginning and its end: there is one order of all the calls, consistent with real time and with each thread's own order, in which made one after the other each call has the result it had, and which leaves the instance as it is left. So no assignment is lost, and a thread reads back what it wrote to a field nobody else assigns. (Not so while another thread runs validate(): an assignment made meanwhile may return without error and be lost.)", "quantifier": "all model classes, instances (also with pending raw data), numbers of threads, adaptive programs of the threads, schedules of their steps", "why_tests_cant": "the number of schedules is unbounded; a wrong one shows up only under an interleaving a test does not control", "anchors": ["schematics/models.py:FieldDescriptor.__get__", "schematics/models.py:FieldDescriptor.__set__", "schematics/datastructures.py:ChainMap"]}
{"id": "C110", "title": "MongoDB object ids survive export and import", "statement": "An ObjectIdType field exports an object id as 24 lower-case hexadecimal digits, and importing that text gives the same object id. Importing accepts exactly the texts of 24 hexadecimal digits and keeps the digits (only their case may change); object ids are kept as they are; any other value gives a conversion error, never another exception.", "quantifier": "all object ids, all texts, all values", "why_tests_cant": "2^96 ids and unboundedly many texts and values", "anchors": ["schematics/contrib/mongo.py:ObjectIdType"]}
{"id": "C111", "title": "Data objects are dicts with attributes", "statement": "A DataObject (the base of context objects) has, after any history of operations on any number of objects, exactly the attributes its own operations gave it: construction and _update take the source, overridden by keyword arguments; _setdefaults and _setdefault keep what is there; del and _pop remove one attribute or raise KeyError and change nothing. No operation changes any object but its own: a copy and its original are independent (though attributes that are data objects themselves are shared). _to_dict returns the nested dict the object stands for, with no data object left as an attribute value, if no object is part of itself; otherwise it raises RecursionError. (_update without a source raises a TypeError, unlike dict.update.)", "quantifier": "all histories of operations on any number of objects; all object graphs", "why_tests_cant": "aliasing between objects depends on the whole history; graphs may be arbitrarily deep or cyclic", "anchors": ["schematics/datastructures.py:DataObject"]}
{"id": "C112", "title": "Two DataObjects are equal exactly if they cannot be told apart", "statement": "Whatever history of operations made the objects: if a == b on DataObjects returns, it returns True exactly if every path of attribute names (a.k1.k2…, b.k1.k2…) reads the same from both - an attribute in neither, equal values, or DataObjects in both - regardless of the order in which attributes were set and of sharing. It always returns if no object is part of itself. An object is equal to itself and to its copy even if it is part of itself; == is symmetric and transitive where it returns (values without NaN). Two different objects in circles end with a RecursionError, and then d == e and e == d need not agree.", "quantifier": "all histories of operations on any number of DataObjects, all pairs of objects, all depths of the recursion", "why_tests_cant": "the agreement is with all paths of attributes, of any length, over all object graphs, shared and cyclic ones included", "anchors": ["schematics/datastructures.py:DataObject.__eq__", "schematics/datastructures.py:DataObject._copy"]}
{"id": "C113", "title": "A field used on its own does what it does in a model", "statement": "For a field built of scalars, lists and dicts, field.convert(v) and field.validate(v) return exactly the value which a model with that field stores for {name: v}, and raise exactly the error this model lists for it; field.to_primitive(v), field.to_native(v) and field.export(v, format) return what the model exports for it. ModelType(M).convert(d) returns the dict which import_loop(M, d) returns and never an instance; ModelType(M).validate(x), and ListType(ModelType(M)).validate of a list with a usable item, raise AttributeError whatever the value (get_validation_context has no option oo); ModelType(M).export(m, PRIMITIVE) without a context leaves the values of m native. PolyModelType.convert(d) and .validate(d) return an instance of the class found for d, with what an import into (a validation of) a new instance of that class gives, defaults and initial Nones included; with convert, models inside it stay dicts, unlike in a model.", "quantifier": "every field of scalars, lists and dicts to any depth, every value but None, every name and serialized name, every strictness, partiality and default option of the model; every class, instance and dict for ModelType", "why_tests_cant": "the two paths build different contexts and meet in the converters of arbitrary nested types with user validators; a test compares them on a few fields and values", "anchors": ["schematics/types/base.py: BaseType.convert, BaseType.validate, BaseType.check_required", "schematics/types/compound.py: CompoundType.convert, CompoundType.export, CompoundType.to_primitive, ModelType._convert", "schematics/transforms.py: get_import_context, get_export_context", "schematics/validate.py: get_validation_context"]}
