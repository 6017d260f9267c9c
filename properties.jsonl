{"id": "C01", "title": "Generated variable names never capture existing ones", "statement": "When a backend asks for a fresh identifier given the identifiers already in use and a preferred name, the result is never one of the used identifiers; it is the preferred name itself if that is free, otherwise the preferred name followed by the smallest decimal number that is free; and the search ends for every finite set of used names, giving up exactly if the preferred name and it with every number below 2^64 - 2 are used.", "quantifier": "every finite set of used names and every preferred name", "why_tests_cant": "A test fixes a few name sets; capture happens for user argument names nobody anticipated (ret0, a_0, ...).", "anchors": ["macroslib/src/namegen.rs: new_unique_name"]}
{"id": "C02", "title": "Function arguments in a foreign_class method have distinct, faithful names", "statement": "For each accepted method signature the argument list handed to the code generators keeps the user's arguments one by one and in order, with their types, the names that were written and the kind of self; arguments written `_` get fresh names, so no two named arguments ever share a name; a signature that repeats an argument name is rejected. A method has self in first position, constructors and static functions have no self (a second self after the first is not noticed by the parser: recorded as a finding). The Rust function is called with exactly these arguments in this order.", "quantifier": "every sequence of arguments accepted by the DSL parser", "why_tests_cant": "Signatures are unbounded in length; a test covers a handful of arities.", "anchors": ["macroslib/src/code_parse.rs: parse_fn_args"]}
{"id": "C03", "title": "Type-parameter substitutions behave as a finite map", "statement": "Looking up a type parameter after any sequence of insertions and in-place updates returns the value most recently stored for that very parameter, absent parameters are reported absent, no parameter is ever listed twice, and a pair is listed exactly if lookup returns it.", "quantifier": "every history of insert/get operations", "why_tests_cant": "History-dependent: needs all operation sequences.", "anchors": ["macroslib/src/typemap/ast/subst_map.rs: TyParamsSubstMap"]}
{"id": "C04", "title": "Source ids keep naming the code that was registered under them", "statement": "Registering sources never changes what an already issued id refers to: id lookups return exactly the registered name and code whatever is registered later, ids are distinct, and registering a second source with the same name is refused.", "quantifier": "every history of registrations", "why_tests_cant": "Error reports for generated code depend on ids issued long before; only an invariant over histories settles it.", "anchors": ["macroslib/src/source_registry.rs: SourceRegistry::register, src, src_with_id"]}
{"id": "C05", "title": "Generated files: right content, no needless rewrite", "statement": "After a successful flush the file on disk holds exactly the bytes generated in memory; if the file already held them the file system is not written at all; a second flush is a no-op; other files are untouched.", "quantifier": "every prior disk state and every generated content", "why_tests_cant": "Incremental builds rely on mtime stability for every pre-existing directory content.", "anchors": ["macroslib/src/file_cache.rs: FileWriteCache::update_file_if_necessary"]}
{"id": "C06", "title": "Flush failure and crash behaviour", "statement": "If a flush fails or the process dies during it, the target is either still the old file, or a prefix of the new content (the write is not atomic); re-running the flush from any such state without faults repairs the file completely. The stronger claim that a crash leaves either the complete old or complete new content is false.", "quantifier": "every crash point of the flush, every prior disk state", "why_tests_cant": "Crash points cannot be enumerated by unit tests.", "anchors": ["macroslib/src/file_cache.rs: FileWriteCache::update_file_if_necessary"]}
{"id": "C07", "title": "User derive/attribute handlers run exactly where requested", "statement": "For a foreign_class every derive that the chosen backend does not treat as built-in must have a registered handler and every method attribute must have one, otherwise expansion fails; handlers run once per occurrence, in source order, each seeing the output of the former; built-in derives never run user code; registering a handler for a reserved or already taken name is refused. (Finding: the Java backend does not treat PlainClass and camelCaseAliases as built-in although no handler can be registered for them, so such classes are always rejected there.)", "quantifier": "every set of registered handlers and every list of derives/attributes", "why_tests_cant": "Handlers and attributes are user supplied; combinations are unbounded.", "anchors": ["macroslib/src/extension.rs: extend_foreign_class, extend_foreign_enum", "macroslib/src/lib.rs: register_class_attribute_callback, register_method_attribute_callback, register_enum_attribute_callback"]}
{"id": "C08", "title": "Replacing first and subsequent occurrences", "statement": "Rewriting a doc/code string with a special text for the first occurrence of a pattern and another for all later ones changes exactly the non-overlapping left-to-right occurrences, keeps all other text, and is the identity when the pattern is absent.", "quantifier": "every source text, pattern and replacement", "why_tests_cant": "String functions range over infinitely many inputs.", "anchors": ["macroslib/src/str_replace.rs: replace_first_and_other"]}
{"id": "C09", "title": "Conversion code templates are instantiated hygienically", "statement": "Instantiating a conversion template puts the caller's variable names and types at every placeholder and nothing else changes, provided the supplied names contain no braces; the temporaries requested by a template are pairwise distinct and distinct from the in/out variables. If one requested temporary is a textual prefix of another the substitution corrupts the longer one.", "quantifier": "every template text and every choice of variable and type names", "why_tests_cant": "Templates are user supplied (foreign_typemap!) and unbounded.", "anchors": ["macroslib/src/typemap.rs: TypeConvCode::generate_code, generate_code_with_subst_func"]}
{"id": "C10", "title": "Conversion search is sound, complete and shortest", "statement": "If a conversion between two Rust types is found in the conversion graph then consecutive steps of it really connect the source to the target, it never has more steps than any other conversion chain between them, and whenever any chain exists one is found.", "quantifier": "every conversion graph, every pair of types", "why_tests_cant": "Graphs are built from user rules; search correctness is a statement about all graphs.", "anchors": ["macroslib/src/typemap.rs: find_conversion_path, TypeMap::convert_rust_types"]}
{"id": "C11", "title": "Generated conversion code chains values correctly", "statement": "Along a conversion chain each step reads the variable written by the former step, the first step reads the caller's input variable and the last writes the requested output variable with the requested type.", "quantifier": "every chain of conversion rules", "why_tests_cant": "Chain length is unbounded and rules are user supplied.", "anchors": ["macroslib/src/typemap.rs: TypeMap::convert_rust_types"]}
{"id": "C12", "title": "Helper code of a conversion rule is emitted exactly once", "statement": "Support code attached to a conversion rule is emitted at the first use of the rule and never again, whatever the number and order of conversions that use the rule; support code of unused rules is never emitted.", "quantifier": "every history of conversions on one type map", "why_tests_cant": "Duplicate items break compilation only for particular histories of uses.", "anchors": ["macroslib/src/typemap.rs: TypeMap::convert_rust_types (TypeConvEdge::dependency take)"]}
{"id": "C13", "title": "Failed speculative search leaves the type map unchanged", "statement": "While searching conversions the generator adds tentative types and rules; when the attempt is abandoned, every type, rule and name lookup is exactly as before the attempt.", "quantifier": "every type map and every history of tentative additions", "why_tests_cant": "Needs all interleavings of tentative additions.", "anchors": ["macroslib/src/typemap.rs: TypeGraphSnapshot"]}
{"id": "C14", "title": "One Rust type, one node", "statement": "The same normalised type name always denotes the same type in the map, different names denote different types, and merging additional conversion tables keeps existing identities while a newly merged rule between the same two types overrides the former one.", "quantifier": "every history of type allocations and table merges", "why_tests_cant": "Order of merged tables is configurable by the user.", "anchors": ["macroslib/src/typemap.rs: find_or_alloc_rust_type, add_node, add_conversion_rule", "macroslib/src/typemap/merge.rs: TypeMap::merge"]}
{"id": "C15", "title": "A foreign type name is registered at most once", "statement": "Adding a foreign type whose name is already known is refused without changing anything; otherwise it becomes retrievable under that name; name and entry lookups stay mutually consistent for ever.", "quantifier": "every history of additions", "why_tests_cant": "History property.", "anchors": ["macroslib/src/typemap/ty.rs: ForeignTypesStorage::add_new_ftype, alloc_new, find_or_alloc"]}
{"id": "C16", "title": "Selection of the foreign type is deterministic and minimal", "statement": "When several foreign types can represent a Rust type by existing conversions, the one selected needs the fewest conversion steps and among equals the one registered first; the choice does not depend on tie-breaking inside the search, and asking again gives the same answer. When conversions must be built from generic rules, the smallest sufficient number of rounds is used, offers that are only intermediate types of other offers are dropped, and among the others the shortest conversion wins, first registered first. (Finding: that deep search can fail an internal assertion when a foreign type uses an intermediate type; without intermediate types it never does.)", "quantifier": "every type map and candidate list", "why_tests_cant": "Ranges over all maps.", "anchors": ["macroslib/src/typemap.rs: map_through_conversion_to_foreign"]}
{"id": "C17", "title": "Generic rule matching is sound", "statement": "If a generic conversion rule is reported applicable to a concrete type that does not itself mention a type named like a rule parameter, then substituting the reported values in the rule's pattern gives that type (up to reference lifetimes, qualified selves and a leading `::`), the reported target is the target pattern under the same substitution, and the types found satisfy the trait bounds written in one place. Conversely every instance of a pattern is recognised when each parameter occurs in it at an inspected position and repeated parameters do not stand alone in tuples, references or slices. (Findings: capture when the concrete type mentions a type named like a parameter; `(T, T)` and `[T; n]` are never recognised; a second list of bounds for the same parameter is ignored; target-only parameters leak; `where` on a compound type panics.)", "quantifier": "every pattern type, every concrete type", "why_tests_cant": "Types are recursive trees of unbounded depth.", "anchors": ["macroslib/src/typemap/ast.rs: is_second_subst_of_first, is_second_subst_of_first_path, GenericTypeConv::is_conv_possible"]}
{"id": "C18", "title": "Type normalisation ignores lifetimes and spelling only", "statement": "Normalising a type is idempotent, erases every lifetime of references and generic argument lists, and for types without trait bounds identifies exactly the types that differ in lifetimes only. (Findings: lifetimes inside trait-object bounds are kept, so such types are told apart by lifetimes; `dyn Foo` and a path type `Foo` get the same normalised name.)", "quantifier": "every type tree", "why_tests_cant": "Unbounded tree depth.", "anchors": ["macroslib/src/typemap/ast.rs: normalize_type, strip_lifetimes"]}
{"id": "C19", "title": "Disambiguated type names never clash", "statement": "Attaching a disambiguation suffix to a type name yields different internal names for different (name, suffix) pairs, never clashes with a plain name, and the printed name is the original one.", "quantifier": "every name and suffix", "why_tests_cant": "All strings.", "anchors": ["macroslib/src/typemap/ty.rs: RustTypeS::make_unique_typename, make_unique_typename_if_need", "macroslib/src/typemap/ast.rs: UniqueName"]}
{"id": "C20", "title": "Macro calls in foreign code templates are expanded exactly", "statement": "In an ASCII template text outside macro calls is copied verbatim in order; each call is replaced by the result of its expansion, called once and in order with exactly the written arguments; a template without calls is returned unchanged; the first expansion error is returned; the scan ends for every text. (Findings: with non-ASCII text the scan can panic or cut a call in the wrong place.)", "quantifier": "every template text and every expander", "why_tests_cant": "All strings; offsets arithmetic goes wrong only at particular multi-byte positions.", "anchors": ["macroslib/src/typemap/typemap_macro.rs: expand_macroses, find_macro"]}
{"id": "C21", "title": "Selecting conditional foreign type rules", "statement": "Among several alternative foreign-side type rules the ones whose option conditions do not hold are removed, a rule set leaving more than one alternative is rejected, and the survivor is kept unmodified.", "quantifier": "every list of alternatives and every option valuation", "why_tests_cant": "Options multiply combinatorially.", "anchors": ["macroslib/src/typemap/utils.rs: configure_ftype_rule"]}
{"id": "C22", "title": "Required includes are emitted once and in order", "statement": "The list of includes produced for a class contains each required include exactly once, in order of first use, and nothing else.", "quantifier": "every class with every number of methods and arguments", "why_tests_cant": "Unbounded lists.", "anchors": ["macroslib/src/cpp/cpp_code.rs: cpp_list_required_includes"]}
{"id": "C23", "title": "C++ enum values round-trip between languages", "statement": "Every item of an accepted foreign_enum has its declaration position as value in the C++ header, in the C header and as the number the Rust variant converts to; when the items name distinct Rust variants converting back gives the same variant; integers that are not a position are rejected; enums too large for the carrier type are rejected at generation time. (Finding: two items naming the same Rust variant are accepted and the second is read back as the first.)", "quantifier": "every enum, every item, every integer received", "why_tests_cant": "Ranges over all enums and all 2^32 values.", "anchors": ["macroslib/src/cpp/fenum.rs: generate_enum, generate_rust_trait_for_enum"]}
{"id": "C24", "title": "Java enum values round-trip between languages", "statement": "In an accepted foreign_enum whose items name distinct variants every item converts to its declaration position, Java's fromInt inverts getValue, Rust's from_jint inverts as_jint, all other integers are rejected on both sides, an Option<enum> survives both directions, present or absent, and enums too large for a Java int are refused.", "quantifier": "every enum, every item, every jint received", "why_tests_cant": "Ranges over all enums and all 2^32 values.", "anchors": ["macroslib/src/java_jni/fenum.rs: generate_enum_code, generate_rust_code_for_enum, generate_java_code_for_enum", "macroslib/src/java_jni/jni-include.rs: Option<T: SwigForeignEnum>"]}
{"id": "C25", "title": "Only well-formed classes are accepted", "statement": "An accepted foreign_class that has constructors or methods on self has a self type; all real constructors agree on the type they construct (unless a trailing dummy constructor states another type: recorded as a finding); a dummy constructor is private, unique and last; a method on self without a self type is rejected; the methods and code snippets are those written, in order, each of the kind (constructor, static function, method with its kind of self) its entry declares; and exactly the classes whose entries follow these rules are accepted.", "quantifier": "every sequence of class items", "why_tests_cant": "State machine over unbounded item lists.", "anchors": ["macroslib/src/code_parse.rs: do_parse_foreigner_class", "macroslib/src/types.rs: ForeignClassInfo::validate_class"]}
{"id": "C26", "title": "Exported C symbols are distinct", "statement": "When class names contain no underscore and are not `private`/`protected`, the exported C name determines access, class and method; in a program with distinct such class names whose methods do not use the names reserved for generated functions no two exported functions share a name. (Findings: without these conditions distinct functions can get the same symbol - `A::b_c` and `A_b::c`, a private method of `A` and a public one of `private_A`, a user method `delete` and the generated destructor.)", "quantifier": "every pair of classes and methods", "why_tests_cant": "All identifiers.", "anchors": ["macroslib/src/cpp/mod.rs: c_func_name"]}
{"id": "C27", "title": "Parsing a typemap rule loses nothing", "statement": "A foreign_typemap! rule is accepted exactly if its lines fit together (one Rust conversion per direction, one foreign conversion per direction and option, one C item block, equal generic parameters, aliases and generic C items only with generic parameters), and an accepted rule contains exactly what its lines say, in order. In the code of a Rust conversion every placeholder is replaced by what it stands for and the rest is kept (findings: `$out` next to `$out_no_type` is left as it is; reading a rule panics when the variable is called o, ou, out or begins with out). A rule is turned into a plain generic conversion exactly if it consists of generic parameters and one Rust conversion with code, without losing types, code, parameters or direction; every other rule is kept unchanged and filed in exactly one place.", "quantifier": "every list of rule lines, every code text, every sequence of rules", "why_tests_cant": "Rule structure space and code texts are unbounded.", "anchors": ["macroslib/src/typemap/typemap_macro.rs: TypeMapConvRuleInfo try_into GenericTypeConv, contains_data_for_language_backend", "macroslib/src/typemap/typemap_macro/parse.rs: parse, parse_r_type_rule, parse_f_type_rule", "macroslib/src/typemap/merge.rs: may_be_merge_conv_rule"]}
{"id": "C28", "title": "Stale generated files are removed, others kept", "statement": "After generation the output directory contains every file that is either generated now or rejected by the removal predicate, and every other file satisfying the predicate is gone.", "quantifier": "every directory listing", "why_tests_cant": "All directory contents.", "anchors": ["macroslib/src/typemap/utils.rs: remove_files_if", "macroslib/src/java_jni/mod.rs: expand_items"]}
{"id": "C29", "title": "Expansion keeps ordinary Rust code in place and is all-or-nothing", "statement": "Items that are not flapigen macros appear in the output in source order and unchanged; each flapigen macro is handled exactly once and contributes no verbatim output; if any macro is erroneous nothing is written to the output file.", "quantifier": "every source file", "why_tests_cant": "All item lists.", "anchors": ["macroslib/src/lib.rs: Generator::expand_str"]}
{"id": "C30", "title": "JNI symbol names are unambiguous", "statement": "Two native methods that differ in package, class, method name or (if overloaded) argument types get different exported symbols, provided no name component begins with the digits used by the escape scheme; for names of ASCII letters, digits and `_` the symbol is exactly the one the JVM looks up. (Findings: a component beginning with an escape digit makes two packages collide; `$` and non-ASCII letters are not escaped, so the JVM does not find such methods.)", "quantifier": "every pair of native methods", "why_tests_cant": "All strings.", "anchors": ["macroslib/src/java_jni/rust_code.rs: generate_jni_func_name"]}
{"id": "C31", "title": "JNI method signatures are well-formed descriptors", "statement": "For a callback method whose arguments are primitives, arrays of primitives, String, generated classes or enums and whose result is void, a primitive or an array of primitives, the generated signature is exactly the JVM method descriptor of these types, and a descriptor determines its types. (Findings: boxed argument types, object results and types without a table entry give ill-formed signatures or a panic.)", "quantifier": "every callback method signature", "why_tests_cant": "All type lists.", "anchors": ["macroslib/src/java_jni/rust_code.rs: predefined_java_type_to_jni_sig, jni_method_signature"]}
{"id": "C32", "title": "Cached JNI classes, methods and fields are consistent", "statement": "Every id used by generated code is looked up exactly once at library load with the class, name and signature given at its use, every cached class reference is released at unload, and conflicting uses of one id are refused. Starting from the macro invocations of the generated code: the code is accepted exactly if every invocation with one of the five reserved names is written as expected and the requests agree. (Findings: one id for two different members is only caught by rustc, a repeated identical request can be refused spuriously, a comma at the end of swig_jni_find_class makes the generator panic, and invocations through a path or inside the arguments of another macro are not seen.)", "quantifier": "every sequence of macro invocations (cache requests) in the user's code", "why_tests_cant": "Unbounded sequences.", "anchors": ["macroslib/src/java_jni/find_cache.rs: JniCacheMacroCalls, JniCacheMacroCallsVisitor", "macroslib/src/java_jni/rust_code.rs: generate_load_unload_jni_funcs"]}
{"id": "C33", "title": "Null annotations are imported iff used", "statement": "A generated Java file imports the NonNull (Nullable) annotation exactly if some type in it carries that annotation. (Exceptions, shown as findings: an unused import for result types that do not print their annotation and for types carrying both annotations.)", "quantifier": "every class", "why_tests_cant": "Unbounded method lists.", "anchors": ["macroslib/src/java_jni/java_code.rs: get_null_annotation_imports"]}
{"id": "C34", "title": "Native call keeps its Java arguments reachable", "statement": "Whenever a Java wrapper extracts the raw native pointer of an argument object, that argument is passed to a reachability fence after the native call; generation fails when there are more such arguments than fences. (The receiver itself is not fenced: finding.)", "quantifier": "every method and argument list", "why_tests_cant": "GC schedule dependent: cannot be reproduced by tests.", "anchors": ["macroslib/src/java_jni/fclass.rs: convert_code_for_method", "macroslib/src/java_jni/mod.rs: reachability fence generation"]}
{"id": "C35", "title": "A native object is destroyed at most once from Java", "statement": "For every interleaving of explicit delete() calls, finalisation and by-value consumption issued by one thread, and for every interleaving of delete() calls from several threads, the native object is destroyed or moved out at most once and never used after, and (if no wrapper argument is null and no native code panicked) none is lost: between operations every object that is not destroyed belongs to exactly one wrapper; concurrent by-value consumption is not protected, nor is passing one object twice in a call, once by value (findings).", "quantifier": "every schedule of operations on one Java object", "why_tests_cant": "Schedules and GC timing.", "anchors": ["macroslib/src/java_jni/fclass.rs: delete/finalize generation, by-value argument conversion"]}
{"id": "C36", "title": "Java callback threads are attached and detached in balance", "statement": "For every nesting of callback invocations on every kind of thread, callback code runs on attached threads only, a thread is detached exactly if this call attached it, and on exit the attachment state is as on entry; the callback's global reference is deleted at most once and never while Rust owns the callback; each trait method calls the Java method found for the name and signature of the method at its own position, with the bits passed. (Finding: if the dropping thread cannot be attached the reference leaks.)", "quantifier": "every sequence/nesting of callbacks, every thread state", "why_tests_cant": "Schedules.", "anchors": ["macroslib/src/java_jni/jni-include.rs: JavaCallback, JniEnvHolder"]}
{"id": "C37", "title": "Integers cross the JNI border without silent change", "statement": "Each integer type accepted or returned by a Java method is transferred such that the value observed on the other side is numerically equal, or the conversion is rejected (exception/panic), and it is rejected only if the other side has no such number; addresses, booleans, optional values round-trip; times arrive in milliseconds. (A far future time wraps silently in a release build: finding.)", "quantifier": "every value of every integer type", "why_tests_cant": "2^64 values.", "anchors": ["macroslib/src/java_jni/jni-include.rs: u8/u16/u32/u64/usize/bool conversions"]}
{"id": "C38", "title": "Strings cross the JNI border unchanged", "statement": "A Rust string sent to Java and read back is identical; every well-formed UTF-16 Java string read by Rust and sent back is identical; an ill-formed one (unpaired surrogate) is refused by a panic, never silently altered; null reads as the empty string.", "quantifier": "every string", "why_tests_cant": "All strings.", "anchors": ["macroslib/src/java_jni/jni-include.rs: JavaString, from_std_string_jstring"]}
{"id": "C39", "title": "C++ containers of Rust data own their buffer exactly once", "statement": "For every history of construction, move, assignment, clear, release and destruction of the C++ vector/string wrappers, each Rust buffer is freed at most once, never used after free, and freed or released exactly once when all wrappers are gone.", "quantifier": "every history of container operations", "why_tests_cant": "Histories and aliasing are unbounded.", "anchors": ["macroslib/src/cpp/rust_vec_impl.hpp", "macroslib/src/cpp/rust_foreign_vec_impl.hpp", "macroslib/src/cpp/rust_vec_access.hpp"]}
{"id": "C40", "title": "Copies of a C++ Rust string are independent", "statement": "Copying a C++ string wrapper that holds a string gives an equal string with its own buffer and leaves the original alone. (For a default constructed or moved-from wrapper this is false: its null pointer goes to the native clone function, undefined behaviour.)", "quantifier": "every history of wrapper operations", "why_tests_cant": "Histories.", "anchors": ["macroslib/src/cpp/cpp-include.rs: RustString"]}
{"id": "C41", "title": "Slice iterators obey random access iterator laws", "statement": "begin()+size()==end(), advancing by any signed distance then dereferencing gives that element, comparisons follow positions, iteration visits each element once, and the difference of two iterators is the number of elements between them. (False for negative differences when elements have more than one byte: the division is unsigned; and for elements of size zero, where begin()==end().)", "quantifier": "every element size, every position, every signed distance", "why_tests_cant": "All 2^64 offsets.", "anchors": ["macroslib/src/cpp/rust_foreign_slice_iter.hpp", "macroslib/src/cpp/rust_foreign_slice_impl.hpp"]}
{"id": "C42", "title": "C++ class wrappers free the Rust object exactly once", "statement": "For every history of construction, copy, move, release, hand-over to and from Rust and destruction of owning and non-owning wrappers of a class, boxed or shared, each Rust object is destroyed exactly once, when its last owner goes, owning wrappers never dangle and non-owning wrappers never destroy anything; undefined behaviour needs a reference wrapper that outlived its object, or a copy assignment to an object's last owner from a reference wrapper to that same object (which the generated operator does not guard against).", "quantifier": "every history", "why_tests_cant": "Histories and aliasing.", "anchors": ["macroslib/src/cpp/fclass.rs: generate_cpp_code/ class wrapper template"]}
{"id": "C43", "title": "Optional, result and pair values survive the C ABI", "statement": "Every value of Option, Result, pair and triple types, nested to any depth over numbers, bool, enums, strings and classes, arrives in C++ as the same value (and pairs, options and results the other way round, so that a round trip is the identity); no member of a C union is read that was not written. (Not so: std::tuple arguments, Results whose two C++ types coincide, default constructed or non-UTF-8 string views.)", "quantifier": "every type and every value of it", "why_tests_cant": "All values of an unbounded family of types.", "anchors": ["macroslib/src/cpp/cpp-include.rs: CRustOption, CRustResult, CRustPair"]}
{"id": "C44", "title": "C++ return type names are emitted faithfully", "statement": "A C++ return type whose name does not contain the letters `struct` is written into the generated header unchanged, and `struct T` is written as `T`. (Finding: the letters are removed inside longer words as well - `InstructionSet` becomes `InionSet`.)", "quantifier": "every type name", "why_tests_cant": "All identifiers.", "anchors": ["macroslib/src/cpp/fclass.rs: cpp_ret_type replace(\"struct\")"]}
{"id": "C45", "title": "Callback objects passed to Rust are released exactly once and calls reach the right method", "statement": "A call of a trait function on a callback object that C++ gave (unique_ptr) or lent to Rust runs, on that same object, the virtual method the interface maps the function to, with the same arguments in the same order. A given object is deleted exactly once, when Rust drops it, never before; a lent one is never deleted by Rust. Nothing is used after deletion unless C++ itself deletes an object it lent. (Found: the generated struct is Clone although it has a destructor - cloning it in Rust deletes the object twice; an argument called `opaque` gives a header that does not compile; otherwise the generated code compiles exactly if names differ and no method is called `opaque` or `C_<name>_deref`.)", "quantifier": "every interface (any methods, any argument names the generated code compiles with) and every history of giving, lending, calling, dropping and deleting", "why_tests_cant": "Histories and method lists are unbounded; a swapped slot or a double delete shows only for particular ones.", "anchors": ["macroslib/src/cpp/finterface.rs: rust_code_generate_interface, cpp_code_generate_interface, generate_interface"]}
{"id": "C46", "title": "Python conversions respect the storage of the wrapped object", "statement": "A wrapped Rust object is handed to a method only in ways its storage allows: by value only for a clonable/copyable class, mutably only through a lock; combinations the storage does not allow are rejected at generation time, and for exactly characterised types the generated conversion has the type the Rust function expects (resp. the announced Python type). (Findings: Arc-kept class by value, Option<&T> and &Vec<T> of a non-clonable class are accepted but do not compile; an enum is known only to classes generated after it.)", "quantifier": "every class storage kind and every (arbitrarily nested) type", "why_tests_cant": "Recursive types.", "anchors": ["macroslib/src/python/mod.rs: generate_conversion_for_argument, generate_conversion_for_return"]}
{"id": "C47", "title": "Python calls on distinct objects never dead-lock on themselves", "statement": "A generated call blocks on itself exactly if a lock-protected object that one argument (or self) keeps locked is locked again by a later one; with pairwise distinct objects the Rust function is always called, with exactly the directly passed objects locked. (Finding: passing an object to its own method always dead-locks.)", "quantifier": "every method signature, every call, every aliasing between self and arguments", "why_tests_cant": "Depends on run-time aliasing and on arbitrarily nested argument types.", "anchors": ["macroslib/src/python/mod.rs: generate_deref_for_*"]}
{"id": "C48", "title": "Conversion search always terminates", "statement": "Building a conversion path with generic rules ends after a bounded number of rounds for every rule set, what it returns is a genuine path, any chain of at most seven rule applications is found, and whatever type or conversion the search adds is one that a generic rule gives. When rules judge types by name, what is found is exactly: known conversions, and chains of at most six steps followed by one rule application and any number of known conversions; so whether a conversion is found does not depend on the order in which hash tables are walked (finding: which one is found, and its length, does).", "quantifier": "every rule set", "why_tests_cant": "Generic rules can generate infinitely many types.", "anchors": ["macroslib/src/typemap.rs: try_build_path"]}
{"id": "C49", "title": "Argument conversion code covers every argument in order", "statement": "For each method the generated conversion code handles exactly the non-self arguments in order, each conversion reads its own argument.", "quantifier": "every method", "why_tests_cant": "Unbounded argument lists.", "anchors": ["macroslib/src/cpp/cpp_code.rs: convert_args"]}
{"id": "C50", "title": "Generated Java native method names separate overloads", "statement": "If the native counterparts of the exported methods of a class differ in name or parameter types and none takes the reserved native name of the destructor, generation succeeds and all exported symbols of the class are pairwise distinct, one per method plus the destructor. (Findings: a user method `delete`, or `foo()` beside `do_foo(long)`, gets a symbol twice.)", "quantifier": "every class", "why_tests_cant": "Unbounded method lists.", "anchors": ["macroslib/src/java_jni/mod.rs: method_name", "macroslib/src/java_jni/fclass.rs: generate_rust_code"]}
{"id": "C51", "title": "Registering a typemap rule does what it says", "statement": "An accepted foreign_typemap rule makes exactly the Rust conversions it lists available (with its code, overriding older ones, leaving all others alone), attaches exactly the foreign-side conversions it lists to the named foreign type, forgets cached search results about its types; registration never panics, and replacing a coded conversion from the same file is refused. (Finding: a refused rule may already have replaced one direction.)", "quantifier": "every rule, every state of the type map", "why_tests_cant": "Unbounded space of rules and map states.", "anchors": ["macroslib/src/typemap/merge.rs: merge_conv_rule, may_be_merge_conv_rule, validate_rule_rewrite, set_unique_prefix"]}
{"id": "C53", "title": "Python enum values round-trip and carry the declared numbers", "statement": "Every item of a foreign_enum exported to Python gets an integer attribute (its discriminant as u32), and provided these are distinct converting an item to Python and back yields the same item, and an integer that is no item's value is rejected with an error. (Findings: discriminants that differ only above bit 31 share a value; the number of an item differs from the one C++ and Java use.)", "quantifier": "every enum declaration, every integer", "why_tests_cant": "Unbounded number of items and all integers.", "anchors": ["macroslib/src/python/mod.rs: generate_enum"]}
{"id": "C54", "title": "A Rust error becomes a Java exception with the same message", "statement": "An exported function returning Ok throws nothing and delivers the converted value; one returning Err throws java.lang.Exception with exactly the error text and delivers no value; an exception never comes from an Ok. (A NUL character in the message panics instead: finding.)", "quantifier": "every result value, every error text", "why_tests_cant": "All values and all messages.", "anchors": ["macroslib/src/java_jni/jni-include.rs: Result rules, jni_throw"]}
{"id": "C55", "title": "Arrays and lists cross the JNI border element by element", "statement": "A list of strings or of objects, or a slice of numbers, given to Java becomes a Java array of the same length with the same elements in the same order; a Java array given to Rust is seen as exactly its elements; lists that are too long for Java are refused, null arrays are refused; only the resulting array stays referenced, a constant number of local references is open at any time, and borrowed contents are given back. (A null element of an object array is undefined behaviour: finding.)", "quantifier": "every list and array, every length", "why_tests_cant": "Lengths are unbounded; local-reference exhaustion only shows for long lists.", "anchors": ["macroslib/src/java_jni/jni-include.rs: vec_string_to_jobject_array, vec_of_objects_to_jobject_array, jobject_array_to_vec_of_objects, define_array_handling_code"]}
{"id": "C56", "title": "Every instantiation of a generic C++ rule has C types of its own", "statement": "Whatever instantiations of Option, Result, pairs, triples, slices and vectors a project uses, nested to any depth and in any order, each gets a C struct (and union) under a name no other one has, made of letters, digits and underscores, defined exactly once and with its own fields; likewise every function pointer type, header, freeing function and vector class made for an instantiation has a name that no other has. (With user-defined repr(C) type names this fails: names are put together without a separator.)", "quantifier": "every set of nested type instantiations", "why_tests_cant": "Type nesting is unbounded, and injectivity is a statement about pairs of types.", "anchors": ["macroslib/src/typemap/typemap_macro.rs: build_generic_aliases, concat_idents, properly_escape_str_as_type", "macroslib/src/cpp/cpp-include.rs: generic_alias!", "macroslib/src/cpp/cpp_code.rs: do_generate_c_type"]}
{"id": "C57", "title": "Values cross the Python border unchanged", "statement": "A Rust function called from Python receives exactly the values the Python values stand for (numbers, variants by number, lists in order, a copy of an object's content by value, the object itself by reference or Arc); a number that is no listed variant raises an exception and the function is not called; what Rust returns reaches Python in the same shape, each by-value object in a new Python object, and the first Err is raised; a value returned and passed back is the same value. (Findings: variants equal modulo 2^32 are confused; Some(None)/Some(()) and None look the same.)", "quantifier": "every signature over arbitrarily nested types and every value", "why_tests_cant": "Types and values are recursive and unbounded.", "anchors": ["macroslib/src/python/mod.rs: generate_conversion_for_argument, generate_conversion_for_return, generate_deref_for_*, generate_wrapper_constructor_for_*, generate_enum_code"]}
{"id": "C58", "title": "Reading a conversion rule file takes exactly what it says", "statement": "After reading a file of conversion rules the type map has exactly: the file's ordinary items, in order, as code to copy; for every SwigInto/SwigFrom implementation one conversion in the right direction with the template given last for that trait (in this or an earlier file) and with the implementation as the code it needs (a generic implementation or conversion macro becomes a generic conversion with its hints); between two types the last conversion given, which is then used alone for them; for each declared foreign type name its last declared Rust type. Items for another pointer width contribute nothing: an item is left out exactly if, among the conditions of its cfg attributes up to the first that cannot be read, the last that states target_pointer_width states, in decimal digits, another width. A file is accepted exactly if each item is in order, and reading does not panic except for conversion macros without usable generic parameters. An implementation is such a conversion exactly if its trait is written SwigInto<T> or SwigFrom<T> without a path in front; with other arguments the file is refused. (Findings: an implementation whose trait is written with a path, like swig::SwigInto<T>, is silently copied and no conversion, a generic implementation cannot have both hints, rules ignore cfg attributes, cfg(not(..)) and cfg(all(..)) never exclude, a misspelt swig_ attribute is dropped without an error, a foreign name without Rust type is skipped silently, after an error all known templates are gone.)", "quantifier": "every file (sequence of items with every combination of attributes), every earlier state of the templates", "why_tests_cant": "Files are unbounded sequences of items whose meaning depends on the items before them.", "anchors": ["macroslib/src/typemap/parse.rs: parse, is_wrong_cfg_pointer_width, my_syn_attrs_to_hashmap, handle_into_from_impl, handle_macro, get_foreigner_hint_for_generic, parse_foreign_types_map_mod, fill_foreign_types_map, add_conv_code", "macroslib/src/typemap/merge.rs: TypeMap::merge"]}
{"id": "C59", "title": "An instance of a generic conversion rule is the rule with everything filled in", "statement": "When a generic conversion rule is used for concrete types, the result is exactly the rule with every type parameter, alias and helper macro call replaced by what it stands for and all other text unchanged: in types, Rust code, foreign code, foreign type names, hidden prefixes and module names. Only the requested direction is instantiated (naming-only rules always give the name). The instance requires the modules of every foreign type used in its type names first, then the rule's own, without repetitions. It is accepted exactly if every macro call in its texts makes sense (of the direction asked for; the other direction and the types do not matter); code that uses helper macros with wrong parameters or unknown names is an error. Aliases consist of identifier characters. (Findings: a misspelt macro in a type is not reported, modules needed only by conversion code are forgotten, aliases of different types can collide, parameters of the user's own macros are rewritten and not expanded.)", "quantifier": "every rule (arbitrary types, texts, aliases), every parameter assignment, every history of answers of the language backend", "why_tests_cant": "Rules, types and texts are unbounded, and the language backend may answer differently each time.", "anchors": ["macroslib/src/typemap/typemap_macro.rs: subst_generic_params, subst_generic_params_to_c_items, build_generic_aliases, properly_escape_str_as_type, expand_type, expand_rtype_rule, expand_ftype_rule, expand_rust_code, expand_foreign_code, expand_module_name, expand_fcode, find_type_param, call_swig_f_type"]}
{"id": "C52", "title": "Shared C++ headers declare each C item once, in order, and in well-formed blocks", "statement": "Whatever rules and instances of generic rules write C items and foreign code into common headers, nested in whatever way: each requested item is declared in its header exactly once (unless mapping its own types requests it again), nothing unrequested is declared, each declaration lists its fields or parameters with the C names found for their types and comes after everything in that header that those types requested and after the includes of other headers; extern \"C\" blocks are balanced and every declaration is inside one; each selected piece of foreign code appears exactly once per module with the namespace filled in; the Rust code has exactly one counterpart per declaration; written text is never changed; a structure that contradicts an earlier meaning of its name, or with a type without C representation, is an error. (Findings: the same item in two headers yields its Rust definition twice; includes and foreign code needed by a function's types land inside extern \"C\"; nothing is included for a constant's type.)", "quantifier": "every tree of nested rule merges, every earlier state, every hash order of include sets", "why_tests_cant": "Merging rules is recursive: declaring one item may instantiate further rules to any depth, and headers are shared by all of them.", "anchors": ["macroslib/src/cpp/mod.rs: merge_rule, cache_f_code, merge_c_types, register_c_type, file_for_module", "macroslib/src/cpp/cpp_code.rs: generate_c_type, do_generate_c_type, add_const_forward_decl, add_func_forward_decl", "macroslib/src/file_cache.rs: FileWriteCache"]}
{"id": "C60", "title": "Doc comments stay comments and enum files say what was declared", "statement": "Doc comments copied into generated files change nothing for the compiler: in C and C++ headers one-line comments not ending in a backslash are seen as blank lines and everything after them is read as if it stood alone; in Java files comments of any number of lines without `*/` and `\\u` are seen as a blank; the doc comments of Python methods are the lines the user wrote, in order. In particular the C++, C and Java files generated for an enum contain, whatever its comments, exactly the declaration of the enum with the items in order numbered from 0 (and in Java one `case` per item). (Findings: the second line of a block doc comment is read as C++ code; a comment ending in a backslash hides the next C++ declaration; text after `*/` is read as Java code; a path like `C:\\users` makes the Java file invalid; block doc comments on Python methods are not read as comments.)", "quantifier": "every list of doc comments, every enum, every following text", "why_tests_cant": "Doc comments are arbitrary user text copied verbatim into another language; only an argument about the lexers covers all of them.", "anchors": ["macroslib/src/cpp/cpp_code.rs: doc_comments_to_c_comments", "macroslib/src/java_jni/java_code.rs: doc_comments_to_java_comments", "macroslib/src/python/mod.rs: generate_method_code", "macroslib/src/cpp/fenum.rs: generate_cpp_code_for_enum, generate_c_code_for_enum", "macroslib/src/java_jni/fenum.rs: generate_java_code_for_enum"]}
{"id": "C61", "title": "The C declarations, Rust functions and C++ members of a class agree", "statement": "For every class the C++ backend accepts: its C header declares exactly the exported functions (one per method, static method and real constructor, plus the destructor of classes with constructors and the clone function of SmartPtrCopy classes), in the order and with the parameters and results of the extern \"C\" Rust functions, every C type being the C name of the Rust type at the same place; every C++ member function is declared with the access, constness and types of its method, defined once, and its definition calls exactly its own exported function with the object (in methods) and the converted arguments in order; calling an exported function runs the user's function once on the converted arguments, each at its own position, and returns its converted result or the heap pointer of the new object. A class with methods but no constructor, an argument called `this` in a method, self by value, two arguments turned into results, and a Copy class without clone are rejected. (Findings: in static-only classes the user's own C++ code gets the access of the last method; a class derived from Copy and SmartPtrCopy uses Copy; C++ keywords are accepted as argument names.)", "quantifier": "every class (any methods, argument types, accesses, derives, comments), every type map with any state and any conversions, every value passed", "why_tests_cant": "Agreement is between three texts in three languages for arbitrary classes; the linker does not compare C++ and Rust signatures.", "anchors": ["macroslib/src/cpp/fclass.rs: generate, do_generate, generate_static_method, generate_method, generate_constructor, find_suitable_foreign_types_for_methods, generate_copy_stuff", "macroslib/src/types.rs: ForeignMethod::generate_code_to_call_rust_func", "macroslib/src/typemap/utils.rs: foreign_to_rust_convert_method_inputs, foreign_from_rust_convert_method_output"]}
{"id": "C62", "title": "The native methods a Java class declares are the functions Rust exports", "statement": "For every class the Java backend accepts: Rust exports exactly one function per method, static method and real constructor (plus the one that frees an object of a class with constructors), under the name the JVM looks for, taking the JNI environment and class and then the object pointer (methods only, first) and one parameter per declared argument; the Java class declares for each of them exactly one native method, whose parameters and result are position by position the Java names of the types whose Rust names the exported function uses; every Java method that is not native itself has the access of its declaration, converts its arguments in order, calls exactly its own native method, keeps the converted arguments alive until after the call, and converts and returns the result. Calling an exported function converts each argument by the conversion for its own position, runs the user's function exactly once on them in the declared order, and returns its converted result or the heap pointer of the new object; the freeing function takes the object back from the heap and drops it once. A class with methods but no constructor, arguments called `this` or `mNativeObj` in a method, self by value and more protected arguments than the largest fence are rejected. (Findings: a constructor's argument may be called mNativeObj, and then the new Java object has no native object; an argument called env is accepted but makes two parameters of one name in Rust.)", "quantifier": "every class (any methods, argument types, accesses, comments), every configuration, every type map with any state and any conversions, every value passed and every behaviour of user functions", "why_tests_cant": "Agreement is between Java and Rust texts for arbitrary classes; the JVM looks functions up only by name and never compares signatures.", "anchors": ["macroslib/src/java_jni/fclass.rs: generate, generate_java_code, generate_rust_code, find_suitable_foreign_types_for_methods, generate_static_method, generate_constructor, generate_method, convert_code_for_method, calc_output_conv", "macroslib/src/java_jni/java_code.rs: args_with_java_types", "macroslib/src/types.rs: ForeignMethod::generate_code_to_call_rust_func", "macroslib/src/typemap/utils.rs: foreign_to_rust_convert_method_inputs, foreign_from_rust_convert_method_output"]}
{"id": "C63", "title": "A C++ class can be used wherever its Rust type occurs, and classes do not disturb each other", "statement": "After any list of classes has been registered for C++, the types of every class with objects are found by all functions: the object type as the C++ class in both directions (given out as an owning wrapper, taken with release()), references to it as `Class &`, `const Class &` and, when returned, as `ClassRef` (if the class derives PlainClass: as the bare C pointer `const ClassOpaque *`), the type of self when it differs as references, and the C pointers between the two languages as `ClassOpaque *`; the Rust code converting between these types is exactly the one of its own class, checks pointers for null and declares its results with the registered types; nothing registered before (foreign types, conversions of other types, what is known about types) changes. Registration is refused exactly if a SmartPtrCopy class is not held by Rc or Arc or has a method `clone`, or if two C++ type names coincide, that is, two classes have the same name or one is called like the reference class of another. A new type implements exactly the traits derived from `derive`. (Findings: a type known before keeps its old traits whatever the class derives; of two classes exporting the same type only the first can be used in functions.)", "quantifier": "every list of classes (any names, derives, object and self types, smart pointers), every type map they are registered in, every class of the list, every Rust type related to it and both directions", "why_tests_cant": "A look-up depends on everything registered before and on all other classes; tests fix a few classes and a single order.", "anchors": ["macroslib/src/cpp/mod.rs: register_class", "macroslib/src/cpp/map_class_self_type.rs: register_typemap_for_self_type, register_rust_ty_conversion_rules, register_intermidiate_pointer_types, register_main_foreign_types", "macroslib/src/typemap.rs: find_or_alloc_rust_type, find_or_alloc_rust_type_that_implements, find_or_alloc_rust_type_with_suffix, add_conversion_rule, alloc_foreign_type", "macroslib/src/typemap/utils.rs: boxed_type, unpack_from_heap_pointer", "macroslib/src/types.rs: ForeignClassInfo"]}
{"id": "C64", "title": "A Java class can be used wherever its Rust type occurs, and ownership passes exactly when Rust takes it", "statement": "After any list of classes has been registered for Java, the types of every class with objects are found by all functions: the object type as the Java class in both directions, references to it and to the type of self as the Java class when passed to Rust, and the pointers between the languages as a `long` that is different for each class and direction; the Rust conversions are exactly those of its own class, treat the `jlong` as a pointer to what was put on the heap and panic if it is null. Java forgets the pointer of an object passed by value exactly if Rust takes the object; for SmartPtrCopy and Copy Java keeps it and Rust makes a clone. Nothing registered before changes. Registration is refused exactly if a SmartPtrCopy class is not held by Rc or Arc, or two classes with objects have the same name (or a name is in use). A new type implements exactly the traits derived from `derive`. (Findings: a Copy class held by a smart pointer gets a conversion that declares the wrong type and does not compile; a type known before keeps its old traits; of two classes exporting the same type only the first can be used in functions.)", "quantifier": "every list of classes (any names, derives, object, constructor and self types, smart pointers), with and without null annotations, every type map they are registered in, every class of the list, every Rust type related to it and both directions", "why_tests_cant": "A look-up depends on everything registered before and on all other classes; ownership mistakes show up only in some combinations of derives and smart pointers.", "anchors": ["macroslib/src/java_jni/mod.rs: register_class", "macroslib/src/java_jni/map_class_self_type.rs: register_typemap_for_self_type, register_rust_ty_conversion_rules, register_main_foreign_types", "macroslib/src/typemap.rs: find_or_alloc_rust_type_with_suffix, add_conversion_rule, alloc_foreign_type", "macroslib/src/typemap/utils.rs: convert_to_heap_pointer, unpack_from_heap_pointer", "macroslib/src/types.rs: ForeignClassInfo"]}
{"id": "C65", "title": "Which foreign type a Rust type gets", "statement": "When a function mentions a Rust type, the foreign type shown to the user is determined as follows. If conversions already known lead to (or from) the Rust type of some foreign type, the foreign type with the shortest chain of conversions is used, of equally short ones the one registered first; generic rules are not consulted and nothing is added. An answer given before is given again. Otherwise the first generic `foreign_typemap!` rule, in the order of registration, whose Rust type for this direction has the given type as an instance with parameter values implementing the required traits, is instantiated with exactly these values, and no other rule; every instance of a rule with values implementing the traits is recognised. What is reported is a foreign type that really represents the Rust type: directly, or with foreign conversion code, and then the Rust type at the boundary is the rule's intermediate type, which belongs to a foreign type without conversion code of its own. All types and conversions known before are kept. `Do not know conversion` is reported only if no known foreign type represents the type in the wanted direction even after the fitting rule was instantiated. If all conversions are known beforehand, mapping the same type again gives the same report. (Findings: a rule whose intermediate type is its own Rust type is accepted and makes the mapping recurse forever; a type mapped with the help of a generic conversion can be mapped to a different foreign type at its second use.)", "quantifier": "every state of the type map (any types, conversions, foreign types, remembered answers), every list of generic rules, every Rust type, both directions, C++ and Java, every order in which the hash maps are traversed, any rule instantiation that keeps the state well formed", "why_tests_cant": "The answer depends on all types, conversions and rules together and on the history of previous look-ups; there are unboundedly many chains of conversions.", "anchors": ["macroslib/src/cpp/map_type.rs: map_type, do_map_type, is_ty_implement_traits", "macroslib/src/java_jni/map_type.rs: map_type, do_map_type, is_ty_implement_traits", "macroslib/src/cpp/mod.rs: CppForeignTypeInfo::try_new", "macroslib/src/typemap.rs: map_through_conversion_to_foreign", "macroslib/src/typemap/typemap_macro.rs: is_ty_subst_of_my_generic_rtype"]}
{"id": "C66", "title": "The C structure, the Rust structure, the C++ class and the Rust trait of a callback agree", "statement": "For every `foreign_callback!` interface the C++ backend accepts there is one list of function pointers, one per method in the declared order, with the type map's types for the arguments (in the direction out of Rust) and the result (into Rust), such that: the C header declares a structure with exactly the members opaque, deref and these pointers; the #[repr(C)] Rust structure has the same members in the same order with the Rust names of the same types; the C++ class declares one pure virtual method for each with the types shown to users, const exactly if the method does not need a unique object; both functions making the structure assign every member by name, to a static function with exactly the pointer's parameters and result, which converts each argument on its own, calls the virtual method of the object it is handed and returns the converted result, under names different from the arguments; the header includes exactly the headers of the used types; each method of the Rust trait implementation has the trait's signature and, called with any values, converts them in order, calls the pointer with its name once with all of them and the object, and converts the result; dropping calls the deref pointer. After any list of interfaces is registered, `Box<dyn Trait>` is passed as std::unique_ptr, the structure, pointers and references to it as themselves, and the conversions are those of the own interface; registration is refused exactly if a C++ type name is taken, i.e. two interfaces have the same name. (Findings: an argument that is also an output is missing in the virtual method but passed in the call; a result whose conversion declares a variable, such as another callback, leaves placeholders in the C++ text.)", "quantifier": "every interface (any methods, argument types and names, comments), every type map with any state and conversions, every value passed and every behaviour of the C++ side, every list of interfaces and every state they are registered in", "why_tests_cant": "Agreement is between four texts in three languages for arbitrary interfaces; calls go through untyped pointers, so nothing checks it when the program is built.", "anchors": ["macroslib/src/cpp/finterface.rs: generate_interface, find_suitable_ftypes_for_interace_methods, cpp_code_generate_interface, rust_code_generate_interface, register_rust_type_and_c_type, register_reference", "macroslib/src/typemap/utils.rs: rust_to_foreign_convert_method_inputs", "macroslib/src/cpp/cpp_code.rs: c_generate_args_with_types, cpp_generate_args_with_types, convert_args"]}
{"id": "C67", "title": "The Java interface, the look-up of its methods and the Rust trait of a callback agree", "statement": "For every `foreign_callback!` interface the Java backend accepts there is one list of methods in the declared order, with the type map's types for the arguments (in the direction out of Rust; a type that needs Java code is passed as jobject, for which a conversion must exist) and the result (into Rust, without Java code), such that: the Java interface declares exactly these methods with these types, names and null annotations; the conversion from a Java object looks up exactly these, by name and JNI signature, in this order, and panics exactly if one is missing; each method of the Rust trait implementation has the trait's signature and, called with any values, does nothing (panics if it has a result) without a JNI environment and otherwise converts the arguments in order, promotes small types as C requires, calls through the JNI function for the result type the method with its own number, clears a pending exception and converts the result. So if the class of an object has each declared method with the descriptor of its Java types, trait method k reaches the Java method k. Only the eight JNI result types are accepted. After any list of interfaces is registered, the Java type of the interface stands in both directions for a jobject carrying its name, which is converted to the boxed trait object by the generated code; registration is refused exactly if a name is taken or repeated. (Findings: all traits are implemented for one structure, so two interfaces with the same trait clash; after a Java exception the default value is converted and returned.)", "quantifier": "every interface (any methods, argument types and names, comments), every type map with any state and conversions, every null annotation setting, every class of the Java object, every value passed and every behaviour of the JVM, every list of interfaces and every state they are registered in", "why_tests_cant": "The methods are found by name and signature text when the program runs and called by number through variadic functions, so no compiler checks the agreement; tests see a few interfaces.", "anchors": ["macroslib/src/java_jni/finterface.rs: generate_interface, find_suitable_ftypes_for_interace_methods, generate_java_code_for_interface, generate_rust_code_for_interface, convert_args_for_variadic_function_call", "macroslib/src/java_jni/rust_code.rs: jni_method_signature", "macroslib/src/java_jni/java_code.rs: args_with_java_types, get_null_annotation_imports", "macroslib/src/java_jni/jni-include.rs: SwigFrom, JavaCallback"]}
{"id": "C68", "title": "The Python module contains exactly the declared classes and enums, and every method calls the declared function", "statement": "For every list of declarations the Python backend accepts: the Python module is initialised with exactly the declared classes and enums, in order, each once under its own name; each class has exactly one def per declared method that is not a dummy constructor, in order, named __new__ for a constructor, __repr__ for to_string and otherwise by the alias or the last part of the path, a static method exactly if the declaration is one, with self or _cls and then the declared arguments in order under their names; calling it calls the declared function with what the Python values stand for, self first, in the declared order, and the result or the error comes back. The field of a class has exactly the type the conversions rely on, every class and enum a def speaks of is generated (with the accessors used; enums earlier), and the module names are distinct exactly if the snake-case names are and none is error. The documentation is that of the declaration line by line, and of the first constructor for the class. Accepted are exactly the lists without callbacks and attribute handlers where the constructors return the self type bare or in one of four pointers and all types are known at that point. (Findings: a class named Error collides with the exception's module; two constructors give two __new__; bodies of inline methods are ignored and a function of that name is called; private methods are public; a constructor returning Result is refused; an enum cannot be used by classes before it; a second class with the same self type opens the first one's wrapper; an argument called py, or self or _cls, is accepted but makes two parameters of one name; a comment of several lines is taken for code from its second line on.)", "quantifier": "every list of declarations (classes with any methods, self types, constructors and documentation; enums; callbacks), every name conversion and identifier check, every list of Python values and every result", "why_tests_cant": "Tests look at one example module; the statement is about every combination of declarations and the references between the generated modules.", "anchors": ["macroslib/src/python/mod.rs: expand_items, generate_class, generate_enum, generate_module_initialization, generate_rust_instance_field_and_methods, generate_method_code, method_name, self_type_conversion", "macroslib/src/typemap.rs: find_foreigner_class_with_such_this_type", "macroslib/src/types.rs: ForeignMethod, ForeignClassInfo"]}
{"id": "C69", "title": "Types built of other types are converted component by component, the way the components are", "statement": "When a rule for a compound type is instantiated, every helper macro in it is answered from the mapping of the type in question in the right direction: swig_f_type! gives the C++ type the user sees for the component and its headers, swig_foreign_from_i_type!/swig_foreign_to_i_type! the component's own conversion code with the given expression put in (or the expression), swig_i_type!(T, output) and (T, input) exactly the types that swig_from_rust_to_i_type! converts to and swig_from_i_type_to_rust! converts from; any other argument is an error and nothing is mapped. So for all component types the pairs, triples and optional values (std and boost) of C++ get, in both directions, exactly the type std::pair<A, B> etc., the headers of the components and their own without repetition, and code converting each component by its own code in its own place; and for a result nested to any depth the C++ type is that nesting and the user's value is made by the same nesting applied to the boundary value. Likewise for arguments: the boundary value is made by the same nesting of C structures and option converters applied to the user's value. In Java a Result<T, E> looks like T and is converted as T is. Limits shown: struct/union removed inside names, Java ignores the argument of swig_i_type! and cannot answer incoming questions.", "quantifier": "every mapping of component types (any names, conversion code, headers, boundary types, with or without converters), every state, every value of the rule's type parameters, every nesting of pairs, triples and options of any depth, every variable name", "why_tests_cant": "There are unboundedly many compound types, and the code is produced by textual substitution into code that is itself the result of substitutions.", "anchors": ["macroslib/src/cpp/map_type.rs: TypeMapConvRuleInfoExpanderHelper for CppContextForArg, arg_direction", "macroslib/src/java_jni/map_type.rs: TypeMapConvRuleInfoExpanderHelper for JavaContextForArg", "macroslib/src/typemap/typemap_macro.rs: expand_ftype_rule, expand_str_in_ftype_name_context, expand_foreign_code", "macroslib/src/cpp/cpp-include.rs: foreign_typemap! rules for (T1, T2), (T1, T2, T3), Option<T>", "macroslib/src/java_jni/jni-include.rs: foreign_typemap! rules for Result<T, &str>, Result<T, String>"]}
{"id": "C70", "title": "The generator does what its build script asked for, and checks all its input before writing", "statement": "A chain of builder calls is refused exactly if two type maps (the built-in one included) share a name, two callbacks of one kind share theirs, or a class callback takes a reserved name; otherwise the generator has the built-in type map first and the merged ones in call order, the last value set for each option or its default, and every callback, and the order of unrelated calls does not matter. A run reads all files, merges the type maps in that order, parses the files in the order given, each under an id that names that file; expand is expand_many of one file. If a file cannot be read, is listed twice, or any type map, macro or file is faulty, or the pointer width is unknown, the backend (which writes the foreign files) is never called, the run does not succeed and the disk is as before. The default package for Optional leaves the built-in Java table unchanged.", "quantifier": "every chain of builder calls in any order, every language, every list of source files and file system, every type map parser, file parser and backend", "why_tests_cant": "Builder chains and sets of input files are unbounded; that nothing is written before an error is a statement about every place an error can occur.", "anchors": ["macroslib/src/lib.rs: Generator::new, with_pointer_target_width, rustfmt_bindings, remove_not_generated_files_from_output_directory, merge_type_map, register_class_attribute_callback, register_enum_attribute_callback, register_method_attribute_callback, expand, expand_many, expand_str, init_types_map, JavaConfig::use_null_annotation", "macroslib/src/source_registry.rs: SourceRegistry"]}
{"id": "C71", "title": "Diagnostics lose no message and mark the place they talk about", "statement": "When generation fails, the report has one part per note, in order; each contains the note's message, and a note with a location also quotes exactly the source lines its span covers, each with a line of marks, and ends with the file, line and column; the file is announced exactly when it differs from that of the previous located note. For a span within one line exactly its characters are marked. For spans inside their files printing itself never fails. (Finding: on the first line of a span over several lines the last character is not marked.)", "quantifier": "every list of notes, every registry of sources, every text and every span inside it", "why_tests_cant": "Spans and texts are unbounded and the arithmetic on columns could underflow for some of them; tests do not exercise error output.", "anchors": ["macroslib/src/error.rs: panic_on_parse_error, eprint_error_location, DiagnosticError", "macroslib/src/source_registry.rs: src_with_id"]}
{"id": "C72", "title": "A passing layout test means that C and Rust agree on the structure", "statement": "For a C structure or union declared in a type map, suppose every C type chosen for a member has the size and alignment of its Rust type. If the layout test generated for the user's own Rust type compiles and passes, then that type has exactly the size and alignment a C compiler gives the declaration in the header, and every declared member exists in it with the declared type at its C offset; members are aligned, inside the type and disjoint. The test passes whenever the user's type is the #[repr(C)] declaration. A type emitted together with its C declaration, if #[repr(C)], agrees likewise. (Findings: members hidden in padding are not noticed; nothing checks that an emitted type is #[repr(C)].)", "quantifier": "every declaration (any members, types, order), every size and alignment of types, every layout of the user's Rust type", "why_tests_cant": "Declarations and layouts are unbounded; a layout test says something about one type on one machine, the property is about what any passing test implies.", "anchors": ["macroslib/src/cpp/cpp_code.rs: do_generate_c_type, CItemDescriptor"]}
{"id": "C73", "title": "An enum value or object handed to Java by reference arrives as the right constant or object", "statement": "The Rust code generated for the enums and classes of a library is accepted by the scan that fills the cache of Java classes and fields whenever the names of the cached variables differ. After the library has been loaded, a Rust enum value passed to a Java callback becomes the static field with the name of its item in the Java class with the name of the enum in the configured package, which is also the constant Java gets when the value is returned as a number; an object becomes a new Java object of the right class whose mNativeObj is the address of exactly that Rust object, and nothing else changes. (Findings: items or classes whose names differ only in case, and enum A with item B_C next to enum A_B with item C, clash.)", "quantifier": "every set of enums and classes, every item, every order in which the cache is filled, every virtual machine that finds the classes", "why_tests_cant": "Names, numbers of items and load orders are unbounded; a wrong constant shows only for particular names and needs a running virtual machine.", "anchors": ["macroslib/src/java_jni/fenum.rs: add_conversion_from_enum_to_jobject_for_callbacks", "macroslib/src/java_jni/fclass.rs: generate_rust_code", "macroslib/src/java_jni/jni-include.rs: object_to_jobject", "macroslib/src/java_jni/mod.rs: java_class_full_name, java_class_name_to_jni"]}
{"id": "C74", "title": "Mapping a type through generic rules ends, with one possible result", "statement": "Mapping a type may instantiate a generic rule whose helper macros ask for the mapping of further types. If generic rules are applied only to instances of guarded patterns (not a bare parameter or a reference to one), intermediate types are known directly, boundary types are not more complex than the types they stand for and the fields of an instance's C types are simpler than the type, then one step of the mapping depends only on the mappings of strictly simpler types, the mapping of every type is settled after finitely many nested mappings (bounded by its size), and exactly one function satisfies the recursion. A mapping succeeds exactly if the type has a foreign type, or a generic rule fits, its C items and the rule can be instantiated with the answers of the same mapping, and there is a foreign type after merging it; the answer is that of the foreign type. All generic rules that come with flapigen have guarded patterns. (Finding: a rule for a bare parameter that asks for that parameter's mapping recurses for ever.)", "quantifier": "every rule set of that kind, every type of any nesting depth, every back end (C++, Java), every state and direction", "why_tests_cant": "Types nest without bound and rule sets are open; a test that runs into endless recursion only shows one bad rule.", "anchors": ["macroslib/src/cpp/map_type.rs: do_map_type, map_type, map_repr_c_type", "macroslib/src/java_jni/map_type.rs: do_map_type", "macroslib/src/typemap/typemap_macro.rs: subst_generic_params, subst_generic_params_to_c_items, find_type_param, build_generic_aliases", "macroslib/src/cpp/mod.rs: merge_c_types, merge_rule"]}
{"id": "C75", "title": "A declaration is accepted exactly in its documented form, and read as written", "statement": "The tokens of a foreign_enum!, foreign_interface!/foreign_callback! or foreign_class! are accepted exactly if they have the declared form: attributes, the word, a name and one braced body, nothing after it. From an accepted declaration the name, the documentation lines in order, the derive lists, and entry by entry in order the names, Rust paths, argument lists, result types, bodies, aliases, documentation and (for functions of a class) other attributes are handed on as written; an enum item without a Rust variant stands for Enum::Item; self_type of an interface may add only Send, Sync and lifetimes to its trait, and at least one self_type is required; other attributes are refused except on functions of a class; the target language makes no difference. (Findings: the comma after the last enum item is mandatory, a second self_type of an interface silently replaces the first, two methods of an interface may have the same name, documentation in front of self_type is lost.)", "quantifier": "every sequence of tokens, whatever Rust's own grammar accepts as types, bounds, argument lists, generics and blocks", "why_tests_cant": "Declarations are unbounded token sequences; a test shows one accepted or refused text, not that every text is read as it is written.", "anchors": ["macroslib/src/code_parse.rs: parse_foreigner_class, parse_foreign_enum, parse_foreign_interface, parse_attrs, parse_doc_comments, do_parse_foreigner_class, ForeignEnumInfoParser, ForeignInterfaceParser", "macroslib/src/typemap/typemap_macro/parse.rs: MacroArgs"]}
{"id": "C76", "title": "A type map rule is accepted exactly in its documented form, and read as written", "statement": "The tokens of a foreign_typemap! are accepted exactly if they are a sequence of lines of the five forms (a rule from or to Rust, a foreign type with its parameters, C items, helper code, a generic alias), each ended by a semicolon, which fit together as C27 says; the rule then holds what the lines say: names, types, directions, code, parameters and order. C items are only #[repr(C)] structs and unions, #[no_mangle] extern \"C\" functions and #[no_mangle] statics, and every one of them is kept. Reading ends in a rule or an error message, except for the one panic of C27. The value of a generic alias is accepted exactly if it is an identifier, swig_i_type! of one or two identifiers, swig_f_type! of one, or swig_concat_idents! of values, nested without bound. (Findings: in a rule with generic parameters faulty C items and alias values are not looked at before the rule is used; of a parameter given twice the last one counts.)", "quantifier": "every sequence of tokens, whatever Rust's own grammar accepts as types, generics, fields and signatures", "why_tests_cant": "Rules are unbounded token sequences; a test shows one accepted or refused text, not that every text is read as it is written.", "anchors": ["macroslib/src/typemap/typemap_macro/parse.rs: TypeMapConvRuleInfo, parse_r_type_rule, parse_f_type_rule, parse_typemap_f_type_arm_param, CItems, CItemsList, GenericCItems, ForeignCode, GenericAlias, GenericAliasItem", "macroslib/src/typemap.rs: parse_foreign_typemap_macro"]}
{"id": "C77", "title": "The code of a generic conversion is its template with the types put in", "statement": "When a generic conversion is used for concrete types, the code of the new conversion is the code of the generic one in which every swig_subst_type!(P) is replaced by the type that the match gave to P (or by P itself if it is not a parameter); every other character stays, and every other macro call stays a call of the same macro with the same arguments. It fails, with a panic, exactly if a swig_subst_type! has not exactly one argument, whatever the types; code without macros is used as it is; and the result depends only on the parameters mentioned. (Findings: swig_subst_type! inside the arguments of another macro is not filled in; a comma in a string given to another macro gets a blank after it.)", "quantifier": "every (ASCII) conversion code, every set of type parameters and types", "why_tests_cant": "Templates and types are unbounded; a macro that is dropped or changed shows only for the template that contains it.", "anchors": ["macroslib/src/typemap/ast.rs: GenericTypeConv::code_for_conversion", "macroslib/src/typemap/typemap_macro.rs: expand_macroses, find_macro"]}
{"id": "C78", "title": "After a successful run the output directory holds exactly what was generated", "statement": "A run of the C++ or Java backend registers all classes before generating anything, and whether it succeeds depends on the disk only through I/O errors. After a successful run each generated file holds exactly the text generated for it, with removal switched on the headers (for Java: .java files) in the directory are exactly the generated ones, and every other file is as before. The result does not depend on what was there before (half-written files of failed or killed runs, files of earlier versions) nor on the order in which hash maps and directories are walked. When no two items write the same file, running again writes and removes nothing. At every moment of every run, also with I/O errors or if it is killed, a file differs from its old state only if it is a file of the computation and then holds a beginning of its text, shared headers are touched only after all items were generated without error, and stale files go only after everything is complete. Two C++ items write the same file exactly if they have the same name or one is a class X and the other is called X_fwd (X_impl). (Findings: a static class and an enum of the same name overwrite each other's headers silently and at every run; a failing run leaves headers of mixed versions.)", "quantifier": "every backend computation, every list of items, every old content of the directory, every pattern of I/O errors, every crash point, every order of hash maps and directory listings", "why_tests_cant": "Crash points, I/O faults and histories of the directory are unbounded; a test sees one directory and one order.", "anchors": ["macroslib/src/cpp/mod.rs: expand_items, init", "macroslib/src/java_jni/mod.rs: expand_items, init", "macroslib/src/typemap/utils.rs: remove_files_if", "macroslib/src/file_cache.rs: FileWriteCache", "macroslib/src/cpp/cpp_code.rs: cpp_header_name, c_header_name, cpp_header_name_for_enum, c_header_name_for_enum"]}
{"id": "C79", "title": "An exported enum can be used wherever its Rust type occurs", "statement": "Enums declared one after the other are accepted exactly if each has few enough items (below 2^32-1 for C++, 2^31-1 for Java), no foreign type has one of their names and their names differ. Once an enum is generated, and whatever is registered later, its Rust type (unless an earlier rule claimed it for another foreign type) is used as the foreign enum of the same name in both directions: in C++ together with the header of the enum, its number travelling as u32 and cast on the C++ side; in Java as jint turned into a constant by fromInt and back by getValue. A type first named by the enum carries the trait that admits it to the generic conversions of the library. Registration of an enum changes nothing else: earlier foreign types, types, conversions and signatures stay. For Java callbacks there is exactly one conversion to jobject and the signature of the enum. (Findings: a Rust type mentioned before the enum keeps its old traits, so the library conversions do not apply; items declared before the enum cannot use it; a clash of names is detected only after the files of the enum were written.)", "quantifier": "every type map, every list of enums, everything registered later, every enum, package and order of the graph search", "why_tests_cant": "The type map the enum enters is the product of arbitrary rules, classes and enums; tests try a few declarations on one library.", "anchors": ["macroslib/src/cpp/fenum.rs: generate_enum", "macroslib/src/java_jni/fenum.rs: generate_enum, add_conversion_from_enum_to_jobject_for_callbacks", "macroslib/src/typemap.rs: find_or_alloc_rust_type_that_implements, alloc_foreign_type, add_conversion_rule"]}
{"id": "C80", "title": "Built-in conversions between values, references and boxes are safe", "statement": "The conversions every generator starts with are exactly: borrowing a value (shared or exclusive), using an exclusive reference as a shared one, and passing from a reference to a box to a reference to its content; each is available for every type and has the matching code. Along any chain of them all expressions compile, the result leads to the same object, a shared reference never becomes an exclusive one, ownership is never given up; and a conversion the search builds from these rules alone is such a chain, and conversely a wanted type at the end of a chain of at most seven steps is always found (types without lifetimes). (Findings: a value can be passed for `&mut`, so changes are made to a local copy; and if the value is itself a parameter of the generated function, as for `&mut i32`, the generated line `&mut a` does not compile because parameters are not declared `mut`; that is the only such case.)", "quantifier": "every type, every chain of conversions, every search in a map without other conversions, every hash order", "why_tests_cant": "Chains of generic rules have unbounded length and type depth.", "anchors": ["macroslib/src/typemap.rs: TypeMap::default, try_build_path, generate_code", "macroslib/src/typemap/ast.rs: GenericTypeConv::is_conv_possible, code_for_conversion"]}
{"id": "C81", "title": "Conversions between smart pointers, locks and references are safe, and when they block", "statement": "The generic conversions the C++ and Java include files add are exactly: `Arc<Mutex<T>>` to `&Mutex<T>`, locking a mutex, access to the content for the holder of the lock, shared access through `Rc<T>` and `&Rc<T>`, borrowing a `RefCell` (shared or exclusively) and access through the borrow; each is available for every type and has the matching code. Along any chain of them and the built-in ones all expressions compile, the result leads to the same object, and no chain gives more access than its start: a plain class behind `Rc`, `Arc`, `Ref` or `&` is never handed out as `&mut`. The arguments of a call can all be converted exactly if no two of the locks and borrows they need exclude each other and no mutex is poisoned; otherwise the call waits for itself or panics at the first one it cannot have. (Findings: the same mutex-protected object passed twice blocks forever even for two readers; reading and changing the same cell panics; `Ref<'a, X>` counts as `Ref<X>` for the map but no rule opens it.) A wanted type at the end of at most seven steps is always found (types without lifetimes). The text written for such a conversion is a sequence of lines that compile and run: each reads what the former wrote, and in the end the wanted variable leads to the same object and no other variable is touched.", "quantifier": "every type, every chain of conversions, every list of arguments, every search in a map with these conversions only", "why_tests_cant": "Chains, types and argument lists are unbounded; dead-locks depend on which objects are passed.", "anchors": ["macroslib/src/cpp/cpp-include.rs: generic typemap rules for Arc/Mutex/MutexGuard/Rc/RefCell/Ref/RefMut", "macroslib/src/java_jni/jni-include.rs: the same rules", "macroslib/src/typemap/merge.rs: may_be_merge_conv_rule", "macroslib/src/typemap/typemap_macro.rs: TryInto<GenericTypeConv>"]}
{"id": "C82", "title": "C++ views of Rust slices are moved, never duplicated, and go back unchanged", "statement": "After any history of receiving slices from Rust, default construction, moves, assignments and destruction, a C++ slice view is empty or shows exactly one slice that Rust handed out, no slice is held by two variables, and so views of disjoint slices never share an element; its elements are those of the slice in order; moving leaves the source empty and everything else alone; handing the view back gives Rust the very same slice as long as the buffer lives, and is undefined behaviour exactly for an empty (moved-from or default) view or a buffer that is gone. (Findings: a moved-from view passes the null check; self-move loses the slice; nothing ties a view to its owner; one exclusive view passed twice gives two overlapping `&mut` slices; object slices are not checked at all; returning `&mut [Class]` generates Rust that does not compile.)", "quantifier": "every history of operations on views, every slice, every buffer life time", "why_tests_cant": "Histories of moves are unbounded.", "anchors": ["macroslib/src/cpp/rust_slice_tmpl.hpp: RustSlice", "macroslib/src/cpp/rust_slice_access.hpp: RustSliceAccess", "macroslib/src/cpp/rust_foreign_slice_impl.hpp: RustForeignSlice", "macroslib/src/cpp/cpp-include.rs: CRustSlice, CRustSliceMut, CRustObjectSlice, CRustObjectMutSlice rules"]}
{"id": "C83", "title": "The generated C++ headers can be included in any order and define everything before it is used", "statement": "Whatever generated C++ headers a program includes, in whatever order and however often, the inclusion ends, no declaration is seen twice, and if no class or interface mentions itself through others, every C function stands after the opaque types it mentions, every class after a declaration and every member function after the definition of the classes it uses, with and without separate implementation headers. With separate implementation headers classes may mention each other in circles if the program first includes all `_fwd.hpp` headers and then the C headers in the order of their own mentions. (Findings: classes whose functions take or return each other never compile, in either mode; without separate headers no circle works; a class taking a callback whose methods take the class never compiles; classes `X` and `X_fwd`, or `X_impl`, overwrite each other's headers.)", "quantifier": "every set of classes and interfaces with any signatures, every list of included headers", "why_tests_cant": "Sets of classes, reference graphs and include orders are unbounded; a test compiles one program.", "anchors": ["macroslib/src/cpp/fclass.rs: generate, generate_cpp_header_preamble, generate_c_header_preamble, do_generate", "macroslib/src/cpp/finterface.rs: cpp_code_generate_interface", "macroslib/src/cpp/cpp_code.rs: cpp_list_required_includes, cpp_header_name, c_header_name", "macroslib/src/cpp/mod.rs: CppForeignTypeInfo::try_new", "macroslib/src/lib.rs: CppConfig::separate_impl_headers"]}
{"id": "C84", "title": "Names of types are computed once per thread and stay valid", "statement": "Whatever types a program asks the generator about, in whatever order and on however many threads, the name it gets for a type is the name computed for that type, and the text behind a name that was handed out is neither changed nor freed while the thread that asked for it lives; asking twice gives the same text, and two names are equal exactly if the computed names are (with C18: if the types differ in lifetimes only). (Finding: the references have the type `&'static str` but are freed when the thread ends.)", "quantifier": "every history of requests and thread ends on any number of threads", "why_tests_cant": "Histories and interleavings are unbounded, and use of freed memory usually goes unnoticed in a test.", "anchors": ["macroslib/src/typemap/ast.rs: normalize_type, NormalizeTyLifetimesCache, with_normalize_type_cache"]}
{"id": "C85", "title": "Options, results, vectors, smart pointers and slices are recognised by exactly their shape", "statement": "The generator treats a type as an option, a vector or a smart pointer `N<X>`, or as a result `Result<A, B>`, only if the type is written in that form (one path segment with exactly that many type arguments), and it then works with exactly the types written as arguments; conversely every type written so is recognised, provided the arguments mention no type called `T` (or `E`). The two recognisers of results never disagree on such types. A slice is recognised exactly when the type is a reference to a slice, exclusive ones only where they are accepted. The implementation generated for a class declares exactly the lifetimes written in the type, so none is undeclared, and its head is accepted by the compiler if and only if the type repeats no lifetime and writes neither `'static` nor `'_`. (Findings: types written with a module path are never recognised; a user's type called `T` or `E` in an argument can hide the shape; `Foo<'a, 'a>` and `Foo<'static>` give heads that do not compile.)", "quantifier": "every Rust type of the modelled syntax, of any depth", "why_tests_cant": "Types are unbounded trees, and a test covers a handful of spellings.", "anchors": ["macroslib/src/typemap/ast.rs: if_option_return_some_type, if_result_return_ok_err_types, if_ty_result_return_ok_type, check_if_smart_pointer_return_inner_type, list_lifetimes", "macroslib/src/python/mod.rs: if_type_slice_return_elem_type, if_vec_return_elem_type", "macroslib/src/cpp/fclass.rs: generate", "macroslib/src/java_jni/fclass.rs: generate"]}
{"id": "C86", "title": "Formatting the generated code neither hangs nor loses code", "statement": "With formatting switched on, the generator feeds the generated code to rustfmt through a pipe from one thread while it collects rustfmt's output from another pipe in a second one. Whatever the child process does, whatever the capacities of the two pipes and however the two threads and the child are scheduled, there is no deadlock, and if the child stops after finitely many steps of its own then every schedule ends with the call returning, after a number of steps bounded by the length of the code and the number of steps of the child. What is returned depends on the child only: run on its own on exactly the generated code, it writes some output and exits with some status; status 0 gives all of that output in order, status 2 gives an error, every other status (also death by a signal, also if the child did not read its input) gives back the generated code complete and unchanged. After the call neither thread nor child is left running.", "quantifier": "every child program, every input, all pipe capacities, every schedule", "why_tests_cant": "Deadlocks and lost data depend on pipe capacities and the interleaving of three parties; a test sees one schedule and small inputs.", "anchors": ["macroslib/src/lib.rs: rustfmt_cnt, expand_str"]}
{"id": "C87", "title": "Objects behind mutexes may be used from several threads", "statement": "When threads call exported functions at the same time, two of them are never in Rust functions that got the same mutex-protected object; the results of the calls and the contents of the objects are, under every schedule, those of the calls made one after the other in the order in which they returned, which respects the order of each thread and real time; no call is lost or repeated; if all calls lock in one common order (in particular if each call gets at most one such object) there is no deadlock and every schedule ends with all calls served. The object of a method is locked after its arguments, so a.f(b) and b.f(a) on two threads can block each other for ever, a call that gets the same object twice never returns, and a text view returned by a method outlives the lock, so another thread may change the object while it is read: recorded as findings.", "quantifier": "every number of threads, every list of calls per thread, every behaviour of the Rust functions on the locked objects, every schedule", "why_tests_cant": "Ranges over all interleavings of unboundedly many threads and calls.", "anchors": ["macroslib/src/cpp/fclass.rs: generate_method", "macroslib/src/java_jni/fclass.rs: generate_method", "macroslib/src/cpp/cpp-include.rs: Arc<Mutex<T>>, Mutex<T>, MutexGuard<T>", "macroslib/src/java_jni/jni-include.rs: Arc<Mutex<T>>, Mutex<T>, MutexGuard<T>"]}
{"id": "C88", "title": "Several generators may write to one output directory at the same time", "statement": "When any number of processes that generate the same code flush their files into one directory at the same time, then under every interleaving of their system calls (with reads and writes of any sizes): a file that some process flushed successfully and that none is writing any more holds exactly the generated text; when all are finished, every generated file holds its text and every other file is as it was; at every moment a file is the old one, or no longer than the generated text with every byte right or zero; if all files were up to date, none is ever opened for writing; no process waits for another one, every process flushes its files in order, and all are finished after a number of system calls bounded by the lengths of the files. Recorded as findings: as files are replaced in place and without locks, a file can be empty although its flush succeeded (while another process rewrites it), and processes with different texts can leave a mixture of both.", "quantifier": "every number of processes, all lists of files and contents, every initial disk, every schedule and every split into reads and writes", "why_tests_cant": "Ranges over all interleavings of system calls of unboundedly many processes.", "anchors": ["macroslib/src/file_cache.rs: update_file_if_necessary"]}
{"id": "C89", "title": "The references exported functions make obey Rust's aliasing rules", "statement": "Generated functions turn raw pointers into Rust references, and while they run a callback may call more of them. Under the rules of stacked borrows every history of calls, callbacks, uses and returns is free of undefined behaviour exactly if no call clashes: an object that is given twice in one call, or that a running function already holds, must be held read-only and be given again as a plain `&T` argument (or have been copied). Whatever the functions then do with what they received, also after callbacks, is defined. For a C++ program (class in boxes) this means: a call outside callbacks whose arguments and receiver are owning variables is defined exactly if no variable occurs twice other than as `&T` arguments; for a Java program, under the conditions of the life-cycle property: exactly if no wrapper occurs again after an argument that is not copied. (Findings: `&self`, and in Java every `&T`, is made through a mutable reference, so `a.f(a)` is undefined although everything is only read; a callback may not call any method of an object whose method is running; for `SmartPtrCopy` classes different variables share an object and `&mut T` is handed out for both.)", "quantifier": "every history of calls, nested callbacks, uses and returns, any number of objects and arguments; every C++ program and every Java program and schedule before the call", "why_tests_cant": "Undefined behaviour of this kind is not observable in a test, and histories and nestings are unbounded.", "anchors": ["macroslib/src/cpp/map_class_self_type.rs: register_rust_ty_conversion_rules", "macroslib/src/cpp/fclass.rs: generate_method", "macroslib/src/java_jni/map_class_self_type.rs: register_rust_ty_conversion_rules", "macroslib/src/java_jni/fclass.rs: generate_method, to_pointer", "macroslib/src/cpp/cpp-include.rs: Option<&T>", "macroslib/src/java_jni/jni-include.rs: Option<&T>"]}
{"id": "C90", "title": "Native code keeps the rules of JNI whatever the Java machine does", "statement": "A Java program calls exported functions, which may call callbacks, whose Java methods may call exported functions again, and so on; any of these may throw or panic, and any call into the Java machine may fail. If the machine follows the JNI specification and the contents of strings and arrays can be had (and, where callbacks take strings, strings can be created), then no JNI function is ever called with an exception pending that must not be; a callback that returns leaves no exception pending. Whatever the machine does, every buffer of a string or array that was received is released exactly once, also on a panic. Converting an argument or result needs at most one or two local references at a time, however long arrays and lists are, and leaves none but the result and one for each callback. (Findings: without memory for an array's copy GetArrayLength is called with the exception pending, without memory for a string argument the callback's method is; local references of callback arguments are never deleted, so they pile up with the number of calls.)", "quantifier": "every Java program of nested calls, every behaviour of the Java machine (answers, exceptions and failures at each call), every list of arguments, all lengths", "why_tests_cant": "Failures of JNI calls are hardly ever seen in tests, their combinations and the nestings are unbounded.", "anchors": ["macroslib/src/java_jni/jni-include.rs: JavaString, JavaUTF16Slice, Java*Array, JavaCallback, object_to_jobject, vec_of_objects_to_jobject_array, jobject_array_to_vec_of_objects", "macroslib/src/java_jni/finterface.rs: generate_rust_code_for_interface", "macroslib/src/java_jni/fclass.rs: generate_method, generate_static_method, generate_constructor"]}
{"id": "C91", "title": "A Python exception tells the Rust error and all its causes", "statement": "A call from Python raises an exception exactly if what the Rust function returned contains an error, and the message of the exception then consists of the messages of the first error, of its cause, of the cause of that and so on to the end, in this order and nothing else, each cause announced by a line `Caused by:`. Every error whose chain of causes ends is reported, with as many nested calls as the chain has members, and the message tells the messages of the chain apart unless one of them has such a line itself. (Findings: an error that has no last cause, such as one that names itself as its source, overflows the stack; an error whose own message has a line `Caused by:` looks like one with a cause.)", "quantifier": "every error type, every chain of causes of any length, every signature and result value", "why_tests_cant": "Chains of causes have any length and messages any content; only a proof covers all of them.", "anchors": ["macroslib/src/python/python-include.rs: swig_collect_error_message", "macroslib/src/python/mod.rs: generate_conversion_for_return"]}
{"id": "C92", "title": "Each configuration option has the value it was given last", "statement": "However often and in whatever order the methods of JavaConfig and CppConfig are called, each option ends with the value of the last call that concerns it and otherwise with its documented default (Java: java.util, a generated fence for eight objects, no null annotations; C++: C++17 for all three types, no separate implementation headers); a call never changes another option, except that use_boost sets all three C++ types; output directory and package or namespace are those given to new. use_null_annotation(p + \".NonNull\") means the same as use_null_annotation_from_package(p), and a chain of calls panics if and only if use_null_annotation is given a text that does not end in .NonNull. The pointer width taken from cargo's variable is the number its decimal digits denote, there is none without the variable, and any other text is a panic. Found: options are not checked, so a package with an empty name or a fence for zero objects is accepted.", "quantifier": "every sequence of calls, every argument; every content of the environment variable", "why_tests_cant": "Sequences of calls have any length and order; only a proof covers all of them.", "anchors": ["macroslib/src/lib.rs: JavaConfig, CppConfig, JavaReachabilityFence, target_pointer_width_from_env"]}
