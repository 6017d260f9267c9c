# Formal model of flapigen-rs — design

## 1. Approach

The model is in `lean/Verif/<Area>/`.  Each topic has

* a model file (`X.lean`): total, computable functions that transcribe the Rust code (or the C++/Java/Rust code that the
  generator ships or emits), every definition with a citation of file and lines in `/repo` and a remark where it
  simplifies;
* a properties file (`XProps.lean`, sometimes several): a small specification that does not use the model's helpers,
  helper lemmas, the property theorems `Cnn_…`, counterexamples `Cnn_finding_…`, and `example`s showing that the
  hypotheses of the theorems are met by concrete, non-trivial cases.

A panic or `Err` is an explicit value (`none`, `Except.error`, a constructor of an outcome type).  `&mut` is state
passing.  Rust `String`/`str` is `List Char`; where byte offsets matter (`Macro/Scan`) UTF-8 lengths are modelled.
Machine integers are `Nat`/`Int` with explicit ranges or `BitVec` where wrap-around matters.  Generated code whose
run-time behaviour is the subject of a property (C++ containers, JNI glue, Java wrappers, Python conversions) is
modelled as a small-step or big-step semantics over explicit heaps, reference tables and threads; the property is
then proved for all histories or schedules by an inductive invariant.

Where the natural English property is false for the code, the statement in `properties.jsonl` says what is true and
lists the exceptions as findings; each finding is a theorem of its own (a counterexample, or a universally quantified
statement that the bad behaviour always happens).  Section 5 lists them.

## 2. Trusted base

* **Lean 4.33.0's kernel.**  No `native_decide`, `bv_decide`, added axioms, or admitted goals.
* **Axioms**: at most `propext`, `Classical.choice`, `Quot.sound` — `AXIOMS.md` lists them theorem by theorem.
* **The reading of the source** recorded in the citations: nothing links `/repo` to the model mechanically.
* **Behaviour of code outside `/repo`**, transcribed from documentation:
  * `std`: `str::replace`, `str::find`, `contains`, `trim`, `char::is_alphanumeric`/`is_whitespace` (the Unicode tables
    are a parameter with only ASCII behaviour fixed), `Vec`, `Box::into_raw`/`from_raw`, `Rc`/`Arc` counts, UTF-16 encoding;
  * `petgraph`: `Graph` (indices, removal of the last node or edge, edge iteration order) and `astar`; the order in which the
    priority queue pops entries of equal cost is an arbitrary function (`PopFn`), so theorems do not depend on it;
  * hash map iteration order: an arbitrary permutation wherever the code iterates over one;
  * `syn`/`proc-macro2`: input is taken as already parsed trees/token pieces (see 4); `parse_nested_meta` for C58 (its use is modelled);
  * the JNI functions used (reference tables, exceptions, array and string access, attach/detach) and the JVM's symbol
    lookup and descriptor grammar, from the JNI specification;
  * C++: object lifetimes, moves, overload/conversion facts used by the shipped templates, LP64 sizes;
  * rustc: the typing rules (auto-ref/deref, method lookup) and temporary scopes needed by the Python backend's
    output, and `rust-cpython`'s object model; `Mutex` is not re-entrant;
  * the file system: read, create/truncate + sequential writes, remove, directory listing; a crash may stop between any
    two of the modelled operations.

## 3. What is modelled, property by property

| id | modelled code | how it is proved |
|----|---------------|------------------|
| C01 | `namegen.rs` | pigeonhole for termination, loop invariant for minimality |
| C02, C25 | `code_parse.rs` (arguments, class items), `types.rs` | induction over item lists; parser state machine against a declarative description |
| C03 | `subst_map.rs` | refinement to a partial function over all histories |
| C04 | `source_registry.rs` | invariant over histories |
| C05, C06 | `file_cache.rs` flush as a small-step program over a disk | refinement; crash after any prefix; counterexample to atomicity |
| C07 | `extension.rs`, registration functions of `lib.rs` | fold lemma against the list of requested calls |
| C08 | `str_replace.rs` | relational decomposition of the text, induction |
| C09 | `TypeConvCode`, temporaries of `foreign_typemap!` code | sequential = simultaneous replacement for inert values; counterexamples for prefixes |
| C10, C48 | petgraph A*, `try_build_path` | search invariants for every pop order; seven-round completeness; exact characterisation of what is found, independent of hash order, for rules that judge by name |
| C11, C12 | `convert_rust_types` | induction on the path |
| C13, C14 | snapshot journal, node table, `merge` | undo ∘ ops = id; invariants over histories |
| C15, C19 | `typemap/ty.rs` storage and unique names | invariants over histories; string lemmas |
| C16 | `map_through_conversion_to_foreign` | fold-minimum lemmas over the search results |
| C17, C18 | `typemap/ast.rs` type trees: matching, normalisation, trait bounds | mutual structural induction; unambiguous printing |
| C20 | `typemap_macro.rs` scanner with byte offsets | induction against a relational reading of the template |
| C21 | `configure_ftype_rule` | list lemmas |
| C22, C49 | `cpp_code.rs`, C++ and C parameter lists | list lemmas, parsing back the text |
| C23, C24, C53 | enum tables of the three backends | index lemmas |
| C26, C44 | C symbol names, return type spelling | decodability of joined names; counterexamples |
| C27 | `typemap_macro/parse.rs`, `try_into`, filing of rules | fold invariant against the content of the lines |
| C28 | stale file removal | list lemmas over directory states |
| C29 | `Generator::expand_str` loop | fold lemma over items |
| C30, C31, C50 | `java_jni` symbol names, signatures | prefix-code argument; descriptor grammar; JVM name mangling as specification |
| C32 | `find_cache.rs` | visitor invariant over items |
| C33, C34 | Java wrapper text: annotations, imports, fences | list lemmas, a small semantics of the wrapper body |
| C35 | Java wrapper objects: threads, finalizer, give/borrow | invariant over all schedules (safety: `wp` of the rest of each operation; no leak: `acc`, where the address goes when the rest runs); counterexamples as runs |
| C36 | callback holder, thread attachment | invariant over all runs of all threads |
| C37, C54 | `jni-include.rs` number conversions, results, exceptions | arithmetic; case analysis |
| C38, C55 | strings and arrays through JNI | UTF-16 round trip; loop invariants over a model of local references |
| C39–C42, C45 | shipped C++ templates and generated classes over a heap with an ownership ledger | ownership invariant over all histories |
| C43, C56 | C structs for Option/Result/tuples; names of instantiations | codec round trip; decodability of names |
| C46, C47, C57 | Python conversion generator, typing of its output, evaluation with locks | induction on types; evaluation semantics |
| C51, C58 | `merge_conv_rule`, `typemap/parse.rs` | invariants; description of the resulting map |
| C52 | `register_c_type`, common C++ headers | trace invariants over arbitrary nesting |
| C60 | doc comments, whole enum files as text | transducers for the lexers of C++, Java and Rust; composition lemmas |
| C61 | a whole C++ class: C header text, exported Rust functions (structured), C++ member declarations and definitions | one prototype specification rendered in C and in Rust; loop invariant; interpreter of Rust bodies over arbitrary values |
| C62 | a whole Java class: the Java file, the native method declarations, the exported Rust functions (structured) | one prototype per method rendered in Java and in Rust; invariants of the two member loops; interpreter of Rust bodies over arbitrary stateful user code; reuse of C30/C33/C34/C50 |
| C63 | registration of C++ classes as a sequence of look-ups, conversions and foreign types in the type map of C13/C14/C15 | effect of any operation sequence (run_done: types kept, conversions overwritten, foreign types appended); first-match argument for the selection of C16; names told apart by their words |
| C64 | registration of Java classes, same operations | as C63; names told apart by cutting at `*`; ownership by the exact texts of the Java and Rust code |
| C59 | rule instantiation (`subst_generic_params`, helper macros) | pieces semantics of texts; structural induction on types |
| C65 | `map_type`/`do_map_type`/`try_new` of the C++ and Java back ends over the type map of C10–C17, rule instantiation as a parameter | reuse of C16 (fast search is minimal), C17 (matching) and C11/C13 (deep search); induction on the recursion allowance |
| C66 | code generation for C++ callbacks: C header and C++ header as text, the Rust structure and trait implementation structured, the registration as operations | one list of slots rendered in C, Rust and C++; invariant of the method loop; interpreter of Rust bodies (C61); run_done for the registration (C63) |
| C67 | code generation for Java callbacks: the Java file as text, the conversion from `jobject` and the trait implementation structured, the registration as operations | one list of slots (as C66); interpreter of Rust bodies (C61); C31 for the signatures, C36 for the method ids, run_done for the registration |
| C68 | `expand_items` of the Python back end: modules, classes, `def`s and the initialiser as structures over the expressions of C46/C57 | inversion of the generator (acceptance characterised), induction on the conversions for the references, composition with C57 for calls |
| C69 | the answers of the C++ and Java back ends to the helper macros, over an arbitrary mapping of types; the compound rules of cpp-include.rs and jni-include.rs | literal templates read once by the kernel (C20), rules of C59 with the answers put in; nesting by induction with a lemma on replacing inside replaced text |
| C70 | the builder methods of `Generator` as a chain of calls, reading/registering of the files, `init_types_map`, then the run of C29; type map, parsers and backend are parameters | induction on the calls and files; independence of the order from an explicit description of the result |
| C71 | `panic_on_parse_error`, `eprint_error_location` and `str::lines` with checked arithmetic | the quotation computed in closed form by induction on the lines; report split into parts by induction on the notes |
| C72 | members written to the header, the checks of the generated layout test, the `repr(C)` algorithm of the Rust reference, arbitrary layouts of the user's type | C layout specified by least aligned offsets, shown unique and equal to the algorithm by induction; checks read off the passing test |
| C73 | macro calls emitted for enums and classes, `SwigFrom<Enum> for jobject`, `object_to_jobject`, on top of the cache and loader of C32 and the heap of C37 | acceptance by induction over declarations and items; values through the loader theorem of C32 and the numbering theorem of C24 |
| C74 | `map_type` written as one step over an oracle for inner questions: the instantiation of C59, the answers of C69, merging of C items with the mapping of their field types; searches and merging are parameters | questions of an instance are shown to be about smaller types (induction over patterns), every expansion function is congruent in the back end, then induction over the rank of the type |
| C75 | the parsers of code_parse.rs token by token (attributes, enums, interfaces, classes); what `syn` parses itself (types, bounds, argument lists, generics, blocks, the inside of attributes) is a parameter that reads a prefix | a separate grammar (source trees and how they are written); parser = inverse of writing, shown in both directions by induction over the token list and the list of entries |
| C76 | the token-level parser of `foreign_typemap!` (lines, parameters, C items, helper code, alias values); what `syn` parses itself is a parameter that reads a prefix | a separate grammar of lines and values; parser = inverse of writing in both directions, composed with C27 for the rule the lines make |
| C77 | `code_for_conversion` on top of the scanner of C20 and the substitution map of C03 | the reading of the template (C20) as separate specification; induction over its pieces; for rewritten calls: brackets stay balanced and splitting the rewritten arguments gives the arguments again |
| C78 | `expand_items` of the C++ and Java backends: initialisation, the two loops over the items, shared headers, removal; what a step computes is a parameter, the disk, I/O faults, orders of walking are oracles; names of the files of each kind of item | the computation without a disk as separate specification; the run equals writing its files one after the other (`flushAll`), then the end; induction over files and listings |
| C79 | `generate_enum` of the C++ and Java backends as operations on the type map (the code of the enum is a flag: written or not), the table of JNI signatures | the effect of sequences of registrations (`run_spec`, `run_done` of C63), first foreign type standing for a Rust type is chosen (C16) |
| C80 | the five default generic conversions (typemap.rs:251-300) run through the matcher of C17, the code instantiation of C77 and the search of C48 | exact characterisation of one step by a specification relation; values with references and boxes, induction over chains; search via `C48_only_instances` (soundness) and `C48_complete` (`C80_found`); names via C18 |
| C81 | the ten generic pointer/lock rules of cpp-include.rs:142-200 and jni-include.rs:1019-1077, read by the model of C27 and added to the rules of C80 | exact characterisation of a step; values with pointers, locks and cells; access rights by induction over chains; a thread that takes locks one by one, induction over the list; completeness of the search via `C48_complete` (`C81_found`) |
| C82 | the three slice view classes and the four pairs of slice rules, over buffers and pointers | history automaton with a ghost list of slices handed out, injection from variables to it as invariant |
| C83 | the files written for a class (`c_X.h`, `X.hpp`, `X_fwd.hpp`, `X_impl.hpp`) and an interface as lists of lines, with the includes computed by the generator; a preprocessor with `#pragma once` | induction on the preprocessor derivation; a rank of headers for acyclic references, completeness of visited headers for circular ones; positions for the impossibility results |
| C84 | the thread-local cache of normalised names with a heap: boxes are allocated and freed, the references handed out are addresses | invariant over histories (every entry of a cache is a live box holding the name of its key, boxes of different entries are different) |
| C85 | the recognisers of special shapes on top of the matcher of C17, the list of lifetimes of a type, and the token sequence of the head of the generated implementation | case analysis of the matcher on the two patterns (soundness without, completeness with freshness of `T` and `E`); structural induction for lifetimes against the printed tokens |
| C86 | the writer thread, the copying main thread, two bounded pipes and an arbitrary child program as a transition system with an explicit scheduler | invariant relating the state to a run of the child alone (`Goes`), progress by case analysis, a decreasing measure for the bound |
| C87 | threads, mutexes and calls as a transition system with an arbitrary scheduler; the lock lists come from the C81 model of the conversions; the Rust functions are arbitrary programs over the locked objects | exclusion and two-phase locking invariant (serialisability against a separate sequential semantics); deadlock freedom by a maximal waiting rank; termination by accessibility |
| C88 | `update_file_if_necessary` system call by system call for any number of processes on one disk; partial reads and writes; writes at an offset beyond the end fill with zero; removal of stale files and failing calls are not part of it (a dead process takes no more steps) | invariant per file (untouched, or every wrong byte has a writer that still comes to it), progress, a decreasing measure; findings by explicit schedules |
| C89 | the conversions of arguments and receiver as operations on a stack of borrows per object (stacked borrows with protectors; objects without interior mutability, one place each), calls that nest through callbacks | invariant (received references are alive, exclusive ones alone), exact characterisation of whole histories against a specification without stacks; C++ and Java programs through the invariants of C42 and C35 |
| C90 | the sequence of JNI calls of every argument and result conversion, of exported functions and callbacks, in a monad over an arbitrary oracle (null, exception, number for each call); buffers and local references as resources; attaching of threads, class look-ups and results of callback methods are not part of it | Hoare triples (clean / may leave an exception; buffers restored; number and peak of local references), mutual induction over programs of nested calls |
| C91 | the report of an error as a recursion over an arbitrary source function, bounded by the depth of the stack; the raising of the exception by the result conversion of C57 | induction over the chain of causes; splitting the text into lines |
| C92 | the configuration methods as state changes, the reading of the pointer width on an arbitrary text | induction over the calls, with the value of each option expressed by the calls that concern it alone; the value of a numeral by induction over its digits |

## 4. What is not modelled

* Parsing of Rust/DSL tokens by `syn` (the models start from items, lines, type trees or text pieces), and printing of
  token streams by `quote`/`prettyplease`/rustfmt, except where the text itself matters (type names, template code).
* The text of whole generated files: method bodies are modelled as far as the properties need (argument lists,
  conversions, symbols, includes, blocks, fences); layout and doc comments are modelled in `Lang/Comments` only.
* Compilers and virtual machines: that the emitted C++, Java or Rust compiles is claimed only where a theorem states
  a typing result (C46).
* Command line tools, build-script environment handling and the logging of errors beyond "an error is reported".
* `foreign_interface`/callback support for Python (the code has none).
* The pieces of the shipped include files that are plain declarations.

## 5. Findings

Behaviour of the pinned commit that contradicts what a user would expect; each is a theorem.

* `C02_finding_second_self` — a second `self` is not noticed by the parser; the argument names are then undefined (the accessor panics; the backends report an error before using it).
* `C06_not_atomic` — C06 (atomicity is false). A crash between truncation and the end of the write leaves neither the old nor the new file.
* `C07_java_rejects_plain_class` — The Java backend does not treat `PlainClass`/`camelCaseAliases` as built-in, and users cannot register a handler for them, so with the Java backend every class carrying one of them is rejected.
* `C09_out_placeholder_lost` — The same happens to `$out` when the input variable is called `o` (or `ou`): the output placeholder is destroyed.
* `C09_prefix_temporaries_corrupt` — A temporary whose name is a prefix of another one's corrupts the longer one: `$p` and `$pin` give `x(v0,v0in)` instead of `x(v0,w0)`.
* `C16_deep_can_panic` — evaluating the length of the second candidate's conversion to its intermediate type inserts the rule `T ⟶ A` into the type map; inserting the chosen first candidate then hits `assert!(find_edge(..).is_none())` (macroslib/src/typemap.rs:1141).
* `C17_array_param_rejected` — Parameters inside an array type are never bound: `[T; n]` matches no `[X; n]`.
* `C17_capture_unsound` — If the concrete type mentions a user type that has the parameter's name, a type that is no instance of the pattern is accepted: `(X, T)` matches the pattern `(T, T)` with `T = X`.
* `C17_repeated_param_in_tuple_rejected` — A parameter used twice as a tuple element is never recognised, although the type is an instance of the pattern: `(T, T)` does not match `(X, X)`.
* `C17_second_bound_entry_ignored` — Only the first entry for a parameter in the list of trait bounds is checked: with `<T: A> where T: B` a type that implements `A` only is accepted.
* `C17_unbound_param_leaks` — A parameter that occurs in the target only leaks into the result when no goal is given: `From -> Box<T>` applied to `From` yields the type `Box<T>` with the raw parameter.
* `C17_where_on_compound_type_panics` — A `where` clause on anything but a bare parameter makes every successful match panic.
* `C18_bound_lifetimes_kept` — Lifetimes in bounds survive: `dyn Foo + 'a` and `dyn Foo + 'b` (and `dyn Foo`) get different names, so "types that differ in lifetimes only are identified" fails for trait objects.
* `C18_dyn_collides_with_path` — `dyn Foo` and the path type `Foo` get the same normalised name, for every `Foo`.
* `C20_finding_non_ascii_param_cut` — a non-ASCII character in a parameter makes the code cut the call short: the last byte of the parameter is lost and the closing bracket is left in the output.
* `C20_finding_non_ascii_word_panics` — a word followed by a blank and a non-ASCII letter — for instance in a comment — makes the scan panic, whatever the Unicode tables say about that letter unless it is white space.
* `C23_finding_alias_items` — two items that stand for the same Rust variant are accepted; the second one does not survive the round trip: it is read back as the first.
* `C25_finding_dummy_overrides` — a dummy constructor with an explicit type placed after a real constructor silently replaces the recorded constructor type by a different one.
* `C26_finding_access` — a private method of `A` clashes with a public method of a class called `private_A`.
* `C26_finding_delete` — a user method called `delete` clashes with the generated destructor, for every class name and with no other method involved.
* `C26_finding_underscore` — without the restriction two different methods get the same symbol.
* `C27_finding_out_left` — next to `$out_no_type`, `$out` goes into the generated code as it is.
* `C27_finding_panic` — a variable called `o` (or `ou`, `out`): reading the rule panics.
* `C27_finding_panic_long` — a variable whose name begins with `out`: its occurrence passes for the result and reading the rule panics.
* `C30_finding_digit` — a component starting with an escape digit breaks the scheme (a package component cannot, by Java's rules, but the generator does not check): package `a.1b` and package `a_b`.
* `C30_finding_other_characters` — `$` (legal in Java package names) and non-ASCII letters (legal in Rust and Java identifiers) are not escaped, so the JVM never finds such a method.
* `C31_finding_boxed` — the entries of the boxed types lack the final `;`, so a callback with a boxed argument gets a signature that no list of types has.
* `C31_finding_object_result` — in the result type the dots are not replaced, so a callback returning a string is looked up with a signature that is not the descriptor of any method whose class names are internal names.
* `C31_finding_unknown_type_panics` — a type without a table entry (for instance `Object`, or a generated interface) makes the generator panic instead of reporting an error.
* `C32_finding_last_comma` — `swig_jni_find_class!(id, "path",)` makes the generator panic, although the macro has a rule for the comma at the end (macroslib/src/java_jni/jni-include.rs:35-42) and the other four accept it.
* `C32_finding_not_seen` — an invocation through a path (`crate::swig_jni_find_class!`), or inside the arguments of another macro, is not seen: without another request for the same class nothing is declared or loaded for it.
* `C32_finding_same_id` — one id for two different members is not refused by the generator: it declares the variable twice (an error of rustc in the generated code).
* `C32_finding_spurious_refusal` — requesting the same class with the same path again after one of its members was requested is refused, although there is no conflict.
* `C33_finding_both_annotations` — a type carrying both annotations is recorded as nullable only, so the other annotation class is not imported although it is printed.
* `C33_finding_unused_import` — a result type without annotation text still triggers an import that nothing in the file uses.
* `C34_finding_receiver_not_protected` — the receiver's raw pointer is read for the native call but the receiver itself is in no fence, although it is an object whose finaliser frees the native object.
* `C35_finding_concurrent_give` — `f(x)` by value in one thread and `x.delete()` in another destroy the native object twice.
* `C35_finding_concurrent_use` — `x.delete()` while another thread is inside `x.f()`: the native method uses a destroyed object.
* `C35_finding_give_twice` — giving an object away twice in one call (`f(x, x)` with `f(a: T, b: T)`) makes the native code panic.
* `C35_finding_leak` — `f(x, null)` with two by-value arguments: `x` is already emptied when the `NullPointerException` is thrown; its native object is never destroyed.
* `C35_finding_lend_then_give` — `f(x, x)` with `f(a: &T, b: T)`: the reference dangles while `f` runs, even with one thread.
* `C35_finding_optional_copy` — an object of a `Copy` class given as `Option<T>` is taken away from its wrapper, although the same object given as `T` is not.
* `C35_finding_receiver_collected` — one thread only calls `x.f()` and does not use `x` again; the receiver has no reachability fence, so the collector may finalise `x` while the native method runs, which then uses a destroyed object.
* `C36_finding_leak` — if the thread that drops the callback cannot be attached, the global reference is never deleted.
* `C37_finding_time_wraps` — in a release build a far future time silently becomes another time: the multiplication of the seconds by 1000 wraps.
* `C38_finding_long_string_cut` — the length is cast to 32 bit without a check: a string of `2³² + k` code units arrives cut to its first `k` ones.
* `C38_finding_long_string_null` — a string of `2³¹ .. 2³² - 1` code units arrives as null.
* `C40_finding_copy_of_empty` — C40, finding: copying a string that was default constructed or moved from hands a null pointer to `String::from_raw_parts`: undefined behaviour. This holds for the copy constructor and (from another object) copy assignment.
* `C41_finding_negative_difference` — C41, finding: the difference is computed by an unsigned division, so a negative difference comes out as a huge positive number (for elements of one byte it is right). Exactly: `it_i - it_j` with `i < j` is `⌊2^w / size⌋ - (j - i)`.
* `C41_finding_zero_sized` — C41, finding: for elements of size zero `begin() == end()` whatever the length: the loop visits nothing although `size()` is `len`.
* `C42_finding_assign_own_reference` — C42, finding: copy assignment frees the target's object before cloning the source, and only compares addresses of wrappers. If the source is a reference wrapper to the object the target is the last owner of, the freed object is cloned: `a = a.as_rref().as_cref();`.
* `C43_finding_same_alternatives` — C43, finding: the code for a `Result` whose value and error have the same C++ type is ill-formed in both directions.
* `C43_finding_same_alternatives_reachable` — … which is so for Rust types that are different, such as `Result<u64, usize>` on 64 bit Linux and `Result<Option<T>, Result<(), T>>`.
* `C43_finding_string_view` — C43, finding: a default constructed `string_view` given as `&str` makes a slice from a null pointer, and text that is not UTF-8 makes an invalid `str`: undefined behaviour in Rust.
* `C43_finding_tuple_argument` — C43, finding: no `std::tuple` can be given to Rust: the generated C++ code uses members `first`, `second`, `third` that `std::tuple` does not have.
* `C44_finding_inside_words` — the keyword is removed inside longer words too, so the function is declared with a type that does not exist.
* `C45_finding_clone` — the generated struct is `pub` and `Clone` and also has a destructor: cloned by Rust code and dropped twice, the C++ object is deleted twice.
* `C45_finding_opaque` — an argument called `opaque` is fine in the C++ class (a fresh name is asked for) but the C header declares the parameter `opaque` again.
* `C46_finding_arc_by_value` — a clonable class kept in an `Arc` and taken by value is accepted, but `(*…).clone()` clones the `Arc`: the code does not compile.
* `C46_finding_enum_order` — an enum is known only to the classes that come after it.
* `C46_finding_option_reference` — `Option<&T>` of an exported class (kept in the default way) is accepted, but the reference does not outlive the `match` arm: the code does not compile.
* `C46_finding_vec_by_reference` — `&Vec<T>` of a class that cannot be cloned is accepted as a result, but the code does not compile.
* `C47_finding_self` — a method taking its own class, called with the object itself, blocks for ever (for every class kept in a lock, `&self` or `&mut self`, the argument by reference, mutable reference or value).
* `C48_finding_order` — the conversion built from generic rules need not be the shortest one, and *which* conversion is built depends on the order in which a hash set is walked: here a conversion of four steps in one order and one of two steps in the other.
* `C50_finding_delete` — a user method `delete` gets the native name of the destructor, for every class.
* `C50_finding_do_prefix` — a method `foo()` and a static method `do_foo(long)` get the same symbol although the user wrote two different names.
* `C51_error_not_atomic` — registration is not atomic. If only the second direction is a forbidden overwrite, the error is reported after the first direction was replaced already.
* `C52_finding_code_in_extern` — C52, finding. Foreign code that comes with the type of a parameter is written into the `extern "C"` block that the function has already opened.
* `C52_finding_include_in_extern` — C52, finding. The headers a function declaration needs are included inside its `extern "C"` block, which breaks for headers that contain C++ templates.
* `C52_finding_self_nested` — C52, finding. If mapping the types of an item asks for the item itself, it is declared twice: the hypothesis of `C52_declared_once` is needed.
* `C52_finding_static_without_include` — C52, finding. Nothing is included for the type of a constant.
* `C52_finding_two_headers` — C52, finding. Whether an item was declared is remembered per header only: the same structure, asked for in two headers, is declared in both, and its Rust definition is generated twice.
* `C53_finding_differs_from_cpp` — Python uses the discriminant where C++ and Java use the position, so the number of one and the same item differs between the languages.
* `C53_finding_wide_discriminants` — with a 64-bit representation two different variants can share a Python value; the second is then read back as the first.
* `C54_finding_nul` — an error message with a NUL character makes the native function panic instead of throwing.
* `C55_finding_null_element` — an array element that is null is dereferenced: undefined behaviour instead of an error.
* `C56_finding_function_pointers` — C56, finding: with types of the user's own function pointers get one name too: with one and with two arguments.
* `C56_finding_optional_class` — C56, finding: the same with `Option<&MutFoo>` and `Option<&mut Foo>` (macroslib/src/cpp/cpp-include.rs:536, 559).
* `C56_finding_user_types` — C56, finding: names are put together without a separator, so with types of the user's own two different types can get one name; the second struct is then not written and its users get the fields of the first.
* `C57_finding_nested_option` — Python does not see how deep an `Option` is nested: `Some(None)` and `None` are both `None`, and so are `Some(())` and `None`.
* `C57_finding_wide_numbers` — variants whose numbers agree as `u32` are confused: the second arrives as the first.
* `C58_finding_both_hints` — a hint must be the only known attribute of an implementation, so a generic one cannot have both hints (a generic conversion macro can).
* `C58_finding_last_cfg` — of several pointer widths only the last one counts, although `cfg`s are a conjunction.
* `C58_finding_lost` — after a file with an error all templates known before are gone.
* `C58_finding_misspelt` — a misspelt known attribute, say `#[swig_to_foreign_hint = ".."]`, is no error: it is as if it were not there, and it is removed from the code.
* `C58_finding_nested_cfg` — conditions are not read inside `all(..)`, and a `cfg` in which anything but a plain word stands before the width is ignored from there on: `#[cfg(all(target_pointer_width = "32"))]` and `#[cfg(unix = "..", target_pointer_width = "32")]` leave nothing out.
* `C58_finding_not` — `cfg(not(target_pointer_width = ".."))` and the like never leave an item out (whatever follows them).
* `C58_finding_qualified_trait` — an implementation of `SwigInto` or `SwigFrom` whose trait is written with a path (`::SwigInto<T>`, `swig::SwigInto<T>`) is no conversion: it is copied like any other code, with its attributes, whatever pointer width it is for.
* `C58_finding_rule_cfg` — `foreign_typemap!` ignores `cfg` attributes: the rule is taken for every pointer width.
* `C58_finding_skipped` — a foreign name without a Rust type is ignored without an error.
* `C59_finding_alias_collisions` — different texts can give one alias: a punctuation character and its decimal code look the same, and the parts of `swig_concat_idents!` are not separated. Rules that name C structures or headers by aliases (`CRustPair`, `CRustOption`, ...) then define two different things under one name.
* `C59_finding_code_modules_dropped` — the modules of foreign types that are mentioned only in the conversion *code* of a rule are not required by the instance, so the header that declares such a type need not be included.
* `C59_finding_type_error_swallowed` — a misspelt macro in a type of a rule is not reported: instantiating the type "succeeds" and leaves the call there. (In code, names and modules the same mistake is an error.)
* `C59_finding_user_macro_parameters` — inside the parameters of the user's own macros flapigen's macros are not replaced, and string literals are not respected: blanks and empty parts around commas are lost.
* `C60_finding_backslash_hides_next_line` — a doc comment that ends in a backslash hides the next line of the C++ header, whatever it declares.
* `C60_finding_java_comment_closed` — what follows `*/` in a doc comment is read as Java code (and so is the closing `*/` of the generated comment).
* `C60_finding_java_unicode_escape` — a doc comment that mentions a path such as `C:\users` makes the Java file unreadable; an escape can also close the comment.
* `C60_finding_python_block` — a block doc comment on a Python method is not read as doc comments.
* `C60_finding_second_line_is_code` — the second line of a block doc comment (`/ .. */`) is read as C++ code.
* `C61_finding_copy_wins` — a class derived from both `Copy` and `SmartPtrCopy` is announced as "ignore Copy", but `Copy` wins: the smart pointer is never cloned and a method named `clone` is required — while registration forbids one written as plain `clone` (C42).
* `C61_finding_foreign_code_private` — in a class with static methods only, the user's own C++ code gets the access of the last method; after a private method it is private.
* `C61_finding_keywords` — names that C++ does not allow for parameters are not rejected: the keyword `class`, and `this` in a function without object; the generated header then does not compile.
* `C62_finding_constructor_field` — an argument of a constructor may be called `mNativeObj` (methods are protected against that); the generated constructor then assigns the pointer to its parameter instead of the field, so the new object has no native object.
* `C62_java_class` — C62: the Java file is: the head, one member per method in the order of the declaration, what is needed for objects, the user's own code. The member of a method declares exactly the native function of that method (with the same name, parameters and result as the exported Rust function, `Proto.java`), and — if the method is not itself native — has a body that converts the arguments, calls this native function, and converts the result (`MemberSpec`). (Semicolons are not white space, and every Java conversion code of the type map contains a statement; see the finding for what happens otherwise.)
* `C63_finding_known_type_keeps_traits` — A type that was known before (because a `foreign_typemap!` rule or an earlier class mentions it) keeps the traits it had: whatever the class derives, it is not recorded that its type is an exported class, `Clone` or `Copy`.
* `C63_finding_plain_class` — A reference `&U` that Rust returns has no C++ class if the class derives `PlainClass`: it is the bare C pointer `const NameOpaque *` of the C header.
* `C63_finding_same_type` — If two classes export the same Rust type, the C++ type of the first is used for it in all functions: values of the second class can be neither passed nor returned.
* `C64_finding_copy_of_smart_pointer` — For a `Copy` class held by a smart pointer the code that should make the object type from a `jlong` declares (and makes) a value of the type inside: passing such an object by value does not compile.
* `C64_finding_known_type_keeps_traits` — A type that was known before keeps the traits it had: whatever the class derives, it is not recorded that its type is an exported class, `Clone` or `Copy`.
* `C64_finding_same_type` — If two classes export the same Rust type, the Java class of the first is used for it in all functions: values of the second class can be neither passed nor returned.
* `C65_finding_endless` — a foreign type whose intermediate type is the Rust type itself (`foreign_typemap!` accepts it) sends `map_type` into an endless recursion in both back ends: the mapping never ends, it does not report an error.
* `C65_finding_history` — the same Rust type can be mapped to different foreign types at its first and at its second use. The first use builds `T ⟶ A ⟶ X` from the generic conversion and drops `FA`, because `A` is the intermediate type of `FX`; that leaves `T ⟶ A` in the map, so from then on the fast search finds `FA`, which is nearer.
* `C66_finding_in_out` — An argument whose type is also an output (`input_to_output`) is left out of the virtual method's parameters, but the static function passes an expression for each argument: the generated C++ does not compile.
* `C66_finding_result_placeholder` — A method whose result is another callback interface (or any type converted by declaring a variable) is generated with the placeholders of the conversion code left in the C++ text.
* `C67_finding_exception` — A Java exception does not stop the Rust caller: whatever JNI returned is converted and returned.
* `C67_finding_one_struct` — The trait is implemented for the one structure `JavaCallback`: two interfaces with the same trait are accepted by the generator, but give two implementations of it.
* `C68_finding_enum_declared_later` — an enum cannot be used by the classes declared before it.
* `C68_finding_error` — a class or an enum whose name is `Error` in snake case puts a second `mod py_error` into the crate.
* `C68_finding_fallible_constructor` — a class whose constructor returns a `Result` is not accepted.
* `C68_finding_inline_and_access` — the body of an inline method, and `private` or `protected`, have no influence on the Python code: a function with the name of the method is called instead of the body, and everything is public.
* `C68_finding_interface` — with a callback interface among the items nothing is generated (the generator panics).
* `C68_finding_long_comment` — a comment of more than one line in one piece (`/ … */`, `#[doc = "…"]`) is given `///` in front of its first line only: the rest is read as code.
* `C68_finding_two_constructors` — a class with two constructors gets two methods `__new__`.
* `C69_finding_java_direction` — Java ignores the second argument of `swig_i_type!`, also an invalid one.
* `C69_finding_java_incoming` — the Java back end can answer no question of a rule that converts incoming values by code.
* `C69_finding_keyword_in_name` — the keywords are removed wherever their letters are followed by a blank: a parameter of a class `Construct` by reference, and a class `Reunion`.
* `C71_finding_first_line_short` — For a span over several lines the last character of its first line is not marked, although it belongs to the span (whenever the line is plain ASCII and the span has more than one character on it).
* `C72_finding_hidden_member` — A user type with one more member hidden in the padding passes the test.
* `C73_finding_class_case` — Two classes (or enums) whose names differ only in case make the generator give up.
* `C73_finding_item_case` — Two items of one enum that differ only in case (`Ab` and `AB`, both legal in Java and Rust) make the generated Rust code declare the same variable twice, which rustc refuses.
* `C73_finding_underscore` — The variable of item `B_C` of enum `A` is the one of item `C` of enum `A_B`.
* `C74_finding_bare_parameter` — A generic rule whose pattern is a bare parameter and which asks for the mapping of that parameter makes the mapping go round for ever: two different mappings satisfy the recursive equation, and at every depth the result is whatever is assumed below (the generator overflows its stack).
* `C75_finding_interface_repeats` — a second `self_type` silently replaces the first, and two methods of an interface may have the same name: neither is reported.
* `C75_finding_last_comma` — the comma after the last item of an enum is not optional: an enum whose (non-empty) body does not end in a comma is always rejected.
* `C75_finding_lost_docs` — documentation written in front of `self_type` is accepted and lost.
* `C76_finding_alias_unread` — the value of an alias is not looked at either: `generic_alias!(N = swig_i_type!());` is accepted, although it is no value (`C76_alias`).
* `C76_finding_c_items_unread` — a struct without `#[repr(C)]` in `define_c_type!` is reported in a plain rule (with the message that the rule is not generic), but in a rule with generic parameters it is accepted as "generic C items" and only looked at when the rule is used.
* `C76_finding_param_twice` — a parameter given twice is not reported: of two options (or two prefixes) the last one counts.
* `C77_finding_nested_not_filled` — inside the arguments of another macro called with round brackets `swig_subst_type!` is not filled in.
* `C77_finding_string_changed` — a comma in a string given to another macro gets a blank after it, so the string changes.
* `C78_finding_mixed_versions` — C78, finding: a failing run has already overwritten the headers of the items before the failing one, and of that item, while the shared headers are still those of the earlier version.
* `C78_finding_same_name` — C78, finding: a class with static methods only and an enum of the same name are accepted by the registration of types, but they share `Foo.hpp` and `c_Foo.h`: the run succeeds, the header of the class is silently lost, and every further run rewrites the files although nothing changed.
* `C79_finding_declared_later` — An item declared before the enum cannot use it: the enum's type is not in the map, so no foreign type is found for it.
* `C79_finding_mentioned_before` — If the Rust type of the enum was mentioned before (by a conversion rule or by a class), it keeps the traits it had: without `SwigForeignEnum` the generic conversions of the library do not apply to it although the enum is accepted.
* `C79_finding_refused_late` — A class or another enum of the same name is detected only after the code and the header of the enum were generated and written (over the header of the class): the error is that of the registration, not that of the code.
* `C80_finding_mut_of_copy` — a value of type `X` can be passed where `&mut X` is wanted: when no more specific rule applies, the function then changes the converted local value, and the foreign caller does not see the change.
* `C80_finding_mut_parameter` — the shortest conversion from `X` to `&mut X` is that borrow and nothing else, so an argument declared `&mut X` whose value arrives as an `X` (say `&mut i32`, which arrives as the parameter `a: i32` of the generated function; parameters are written without `mut`) gives a function that does not compile, although generation succeeds.
* `C81_finding_cell_twice` — with `Rc<RefCell<…>>` reading twice works, but reading and changing the same object panics.
* `C81_finding_lifetime_argument` — lifetimes do not count in names but do in patterns: `Ref<'a, X>` is the same type to the map as `Ref<X>`, yet no rule gives access to its content; it can only be borrowed itself (likewise for the other pointers).
* `C81_finding_same_object_twice` — a function that gets the same mutex-protected object twice, even for reading, never runs: the thread waits for itself.
* `C82_finding_dangling` — nothing ties a view to the owner of its elements: after the owner is gone the view still has its length and gives out addresses, and handing it back is undefined behaviour, unnoticed.
* `C82_finding_moved_from` — a view that was moved from, or default constructed, passes the length check and reaches `from_raw_parts` with a null pointer.
* `C82_finding_pointer_type` — the pointer put into the struct has the type of the field except for exclusive slices of objects: returning one gives Rust code that does not compile.
* `C82_finding_self_move` — moving a view onto itself loses the slice.
* `C82_finding_two_exclusive` — `as_c` is `const` and the object views are passed by copy, so one exclusive view passed for two arguments makes two overlapping `&mut` slices.
* `C82_finding_unchecked` — the object views accept from C++ what the plain ones reject: a null pointer with a positive length.
* `C83_finding_c_circle` — C83, what does not work: classes whose functions take or return each other in a circle. However a program includes the headers, and with separate implementations or not, some C function stands before an opaque type it mentions.
* `C83_finding_callback_circle` — C83, what does not work: a class with a method that takes a callback interface whose methods take the class, with separate implementations or not: interfaces have no `_fwd.hpp`, and their member functions are always in the class body.
* `C83_finding_inline_circle` — C83, what does not work: without separate implementations, classes whose members mention each other in a circle (also inside a container). Some member function stands before a class it uses.
* `C83_finding_names` — C83, what does not work: the header of a class `X_fwd`, or of a class `X_impl` with separate implementations, has the name of a header of the class `X`.
* `C84_finding_thread_end` — The references are typed `&'static str` but do not live that long: every name a thread has asked for is freed when the thread ends.
* `C85_finding_qualified` — A type written with a module path, like `std::result::Result<A, B>` or `std::rc::Rc<X>`, has none of the special shapes.
* `C85_finding_repeated_lifetime` — A class whose type repeats a lifetime gets an implementation that declares it twice, and one that writes `'static` gets one that declares `'static`; neither compiles.
* `C85_finding_user_T` — A user's type called `T` hides the shape: `Option<v<T>>` is not an option, for every `v`.
* `C87_finding_opposite_orders` — the object of a method is locked after the arguments, so two threads that call `a.f(b)` and `b.f(a)` at the same time can block each other for ever.
* `C87_finding_same_object` — a call that gets the same object twice never returns, even without other threads.
* `C87_finding_view` — a view (`&str`) returned by a method of a mutex-protected object outlives the lock: one thread has got its view of the object and holds no lock, and at the same moment another thread is in a Rust function about to change that very object.
* `C88_finding_empty_after_success` — files are replaced in place and without a lock. With two generators of the same version a flush may have returned `Ok` to the first one, and yet the file is empty at that moment, since the second one had found no file before and truncates it now.
* `C88_finding_mixed` — generators of different versions can leave a file that neither of them wrote: the shorter text over the longer one.
* `C89_finding_java_twice` — C89, finding: in Java `&T` and `Option<&T>` arguments are made through a mutable reference, so no function may be given the same object twice, even if it only reads it.
* `C89_finding_reentry` — C89, finding: a callback may not call any method, not even a `&self` one, of an object whose method is running: the reference of the running method is removed. Giving the object as a plain `&T` argument is allowed if the running method has `&self`.
* `C89_finding_shared_self` — C89, finding: `&self` is made through a mutable reference, so a method that takes another object of its class by `&T` may not be given the same object twice: `a.same_as(a)` is undefined in C++, although both are shared references (for Java see `C89_finding_java_twice`).
* `C89_finding_smart_ptr` — C89, finding: for classes with `#[derive(SmartPtrCopy)]` two variables share an object, so a call that gets different variables, one of them as `&mut T`, can be undefined all the same.
* `C90_finding_array_without_memory` — If there is no memory for a copy of an array (`GetIntArrayElements` and the like throw then), the native code still calls `GetArrayLength`, which must not be called with an exception pending.
* `C90_finding_callback_references_pile_up` — Unlike these, the local references of a callback's arguments stay until the exported function that calls it returns, or for ever on a thread that was not started by Java: after `k` calls with a string there are `k`, so no number is enough for all programs.
* `C90_finding_string_argument_without_memory` — If there is no memory for a string argument of a callback, the Java method is called with the exception pending.
* `C91_finding_confused` — an error whose message has a line `Caused by:` cannot be told from one with a cause.
* `C91_finding_endless` — an error that has no last cause (such as one that names itself as its source) overflows every stack, so the process ends instead of an exception being raised.
* `C91_finding_self_cause` — such errors exist: one that is its own cause.
* `C92_finding_unchecked` — nothing checks the options: an empty package of annotations is accepted, and a fence for no objects.
