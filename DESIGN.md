# Formal model of osa1/parsegen in Lean 4

## Layout

* `lean/Verif/Model/*`  executable model of the Rust code, one file per source file; every definition cites the `/repo` lines it models and says where it simplifies.
* `lean/Verif/Spec/*`   small specifications that do not mention the model's algorithms: derivations and their evaluation, FIRST, validity and LR(1), the meaning of a grammar as the user wrote it, matching of patterns, what a caller of `parse` observes.
* `lean/Verif/Proofs/*` lemmas.
* `lean/Verif/Props/*`  the property theorems (`cNN_*`), each with a concrete non-trivial instance of its hypotheses next to it (`Examples` namespaces, `example`s), and theorems exhibiting accepted programs for which a stronger claim fails (`*_counterexample*`).
* `lean/Verif/Conformance/*` validation of the model, no properties: all integration tests of `tests/tests.rs` (from the verbatim text of the `parser!` call to the value asserted by the test) and the unit tests of `src/ast.rs`, `src/lr1.rs` and `src/lr0.rs`, evaluated by the kernel on the model; all expectations of the tests hold of it.
* `seeded/LOG.jsonl`    wrong programs the theorems were tested against.

Start with C83 (`Spec/Contract.lean`, `Props/Contract.lean`): it puts the main properties together, from the tokens given to `parser!` to what executing the emitted text does.

A reader who wants to check that a theorem says what the property says needs: the property text, the theorem statement in `Props`, and from `Spec` the files `User` (grammar, sentences, evaluation), `Compiled` (`Compiled`, `Returns`, `Means`), and for some properties `Regular`, `Valid`, `Tokens`, `Loops`, `During`, `Syntax`, `Print`, `EmitNames`, `EmitRun`, `EmitTyping`.

## Trusted base

* Lean 4's kernel. No axioms of our own, no compiled evaluation (`decide +kernel` is evaluated by the kernel).
* Axioms used: every property theorem depends on a subset of `propext`, `Classical.choice`, `Quot.sound` (list at the end).
* That the model is the code: established by reading, function by function, not by proof; corroborated by replaying the project's own tests on the model (`Conformance`). The lexer, the readers for types, expressions and paths and the table giving meaning to action expressions in `Conformance/Source.lean` are only used there.
* Rust library behaviour assumed by the model: `Vec`, `HashMap`/`HashSet` (FxHash; iteration order arbitrary), `BTreeSet` (sorted iteration), `HashMap::insert` returning the old value, integer `as`/`try_from` conversions.
* Behaviour of `syn` 1.0 assumed by the reader model (C42-C46), from its documentation and source as remembered, the crate not being available here: a failed `parse::<Token>()` consumes nothing; punctuation is matched character by character, only characters before the last must be joint; `Ident` rejects keywords and `_`; `Lit` is a literal token, `true`, `false` or a negated number; `LitStr::parse` reads a `Lit` and, if it is not a string, fails *after* consuming it; `Punctuated::parse_terminated` reads elements separated by commas up to the end of the group.

## What is modelled

| source | model |
|---|---|
| `src/grammar.rs` (data, `new`, `add_*`, accessors, `non_terminal_production_action_indices` order) | `Model/Grammar.lean` |
| `src/ast.rs` (data types) | `Model/Ast.lean` |
| `src/ast.rs` (all `Parse` implementations) | `Model/Syntax.lean` |
| `src/lower.rs` (all) | `Model/Lower.lean` |
| `src/first.rs` (all) | `Model/First.lean` |
| `src/lr1.rs` (items, closure, goto, automaton, table) | `Model/LR1.lean`, `Model/Table.lean` |
| `src/lr_common.rs` (actions, table builder, accessors) | `Model/Table.lean` |
| `src/codegen.rs` (semantic action table, variants, token functions, patterns) | `Model/Codegen.lean`, `Model/Pattern.lean` |
| `src/lr_codegen.rs` (generator side: arrays, entry points, expected tokens) | `Model/Codegen.lean` |
| `parse`/`parse_generic` and semantic action functions *emitted* by `lr_codegen.rs`/`codegen.rs` | `Model/Runtime.lean` |
| the emitted Rust items as text with names (`codegen.rs`, `lr_codegen.rs`) | `Model/Emit.lean` |
| the same with the `syn::Ident::new` calls | `Model/Idents.lean` |
| the emitted token functions when some paths in patterns are variables | `Model/Variables.lean` |
| the meaning of that text, names looked up | `Model/EmitRuntime.lean` |
| the statements of the emitted functions (`quote!` in lr_codegen.rs:101-231, codegen.rs) | `Model/Text.lean` (printed by `Model/TextPrint.lean`) |
| the part of Rust those statements are written in (expressions, statements, patterns, memory cells; knows nothing of parsers) | `Model/Rust.lean` |
| `src/follow.rs` (switched off in lib.rs) | `Model/FollowSets.lean` |
| `src/lr0.rs` (switched off in lib.rs): closure, goto, automaton, SLR table | `Model/LR0.lean` |
| `src/lib.rs` | `Model/Macro.lean` |

Conventions.

* `while` loops of the generator take fuel and report "out of fuel" as an explicit fault; C16 shows the computed fuel always suffices (and that fault is excluded by C39), so fuel is never a hidden bound. The loop of the emitted parser is `parseLoop` with fuel; `Returns` says "for some fuel", non-termination is "for no fuel".
* Rust panics are explicit error values (`Fault`).
* Hash containers are duplicate-free lists; every iteration over one goes through an arbitrary permutation (`HashOrder`), so all theorems hold for every iteration order. A `HashOrder` is a function of the contents (in insertion order).
* `BTreeSet` is a sorted duplicate-free list.
* Semantic actions are arbitrary functions from the bound names and a world `W` (side effects, including the user state) to an optional result; `none` is a panic in the user's code. The world recorded at such a panic is the one before the failing action.
* The token iterator is an arbitrary `Nat → Option (Except E Tok)`: also infinite ones, and ones that continue after `None` or an error.
* Types are opaque with decidable equality (`syn::Type: Eq + Hash`).
* `usize`/`u32` indices are `Nat`; the narrowing conversions to `u16`/`u32` in the generator are modelled, including the silent `as u32` in `lower.rs` (C32).

Not modelled: tokenisation and `syn`'s own parsers for types, expressions and paths (parameters of the reader, assumed to consume a non-empty prefix of the tokens); groups with invisible delimiters; spans and the texts of `syn`'s syntax errors (the texts of the macro's own panics are C57); borrow checking and rustc's type checking of the fixed text of `parse_generic` (its execution is C58; the typing of the grammar dependent items is C49; exhaustiveness of the two emitted token `match`es is a hypothesis: fields `idx` and `value` of `Compiled`); (actions that use `return` or the emitted variable `value_stack`, and thus escape the expression they are pasted into, are C54; elsewhere actions end with a value or a panic); (a `next()` that panics is C60; iterators whose results depend on the side effects of actions, or that have side effects the actions see, are C51; elsewhere the iterator is a fixed sequence, see `c51_fixed`); (path patterns that rustc takes for variables are C66; elsewhere a path pattern is a unit variant or constant); derived `Debug` output (the `Display` implementations are C78; `<str as Debug>::fmt` is a parameter there, of which only is assumed that the string and its end can be read off); memory and time other than the number of loop iterations and the sizes of the stacks (C50); `maplit.rs`, `test_grammars.rs` (test-only). `follow.rs` and `lr0.rs` are not compiled into the macro (lib.rs:14-15); they are modelled all the same (C69 to C71), except the display types of `lr0.rs`.

## Properties: what is proved and how

| | form | method |
|---|---|---|
| C01-C03, C06 | every accepted program, entry point, iterator, world | one invariant of the run loop: the state stack is a path of the automaton spelling `γ`, the value stack is an evaluated forest with symbols `γ` whose leaves are the consumed tokens, the world is the result of running its actions in order; corollary at Accept; lowered grammar related to the user's by C24 |
| C04, C05 | `Regular` programs (no name defined twice, LR(1), FIRST complete); without the last two conditions refuted by `c04_counterexample_first` (an LR(1) grammar), `c04_counterexample_shift`, `c05_counterexample`. `c04_user`, `c05_user` put all conditions on the grammar as the user wrote it (`Spec/UserLR`: `ULR1`, `UHarmless`) | simulation by induction on the derivation; an abstract deterministic LR machine is complete, hence derivations are unique |
| C07 | no empty computed FIRST set among those the generator looks at (implied by: productive and FIRST complete), or LR(1) and productive (`c07_lr1`, no condition on FIRST); refuted without by `c07_counterexample` and `c07_lr1_counterexample` | an endless run would read nothing; every item on the stack is justified by a finite derivation of a string starting with the lookahead; well-founded measure. For LR(1) grammars the same argument is made for the items with the true FIRST sets: every reduction of the emitted parser is by one of them, hence it is the only move they allow |
| C08 | the prefix property for every program; "no sentence continues" for regular programs | validity of items for viable prefixes, C04 |
| C09, C10 | soundness for every program; completeness for regular productive ones, refuted otherwise (`c10_counterexample`) | as C08 |
| C11-C15 | every program | corollaries of the run invariant; C14 by congruence of the loop |
| C16 | every grammar | explicit bounds for the three loops; the loops are characterised by `LoopEnds`/`WorkEnds` (no fuel in the statement) |
| C17, C18 | soundness always; completeness iff the table is closed, and for grammars whose nullable non-terminals are harmless; where only the sets the generator looks at matter (`Grammar.Relevant`, `FirstEnough`), harmless among those suffices; two counterexamples | fixpoint invariants. `harmlessCheck` (Props/Harmless.lean, not modelled code) decides the condition from a guess of the nullable and the relevant non-terminals |
| C19 | every program, every two hash orders: same error, or same output up to the order of the entry point structs | each set characterised by membership, sorted representations equal |
| C20-C23 | every grammar | the table builder folded over the sorted items of a state, characterised by the set of wanted moves |
| C24-C27 | every macro input | structural induction; transfer of derivations and evaluations in both directions |
| C28, C29 | all declarations and token values | mutual induction on patterns; `c29_arrives` follows the captures through the run into the actions (inversion of the derivation of C02) |
| C30, C31, C33, C34 | every grammar | the emitted pops/binds function against a right-to-left specification |
| C32 | every grammar | the checked conversions |
| C35 | every item list | induction on the list |
| C36-C38 | every grammar | least fixpoint characterisation of closure; path characterisation of the automaton |
| C39 | every macro input below 2^32 non-terminals | all stages |
| C40, C41 | every moment of every run | run invariant; truncation of the input |
| C42-C46 | every token list, every instance of `syn`'s type, expression and path parsers | the reader against a BNF-style grammar (`Spec/Syntax`): soundness by induction on fuel, completeness by (mutual) induction on derivations; `Spec/Print` for the round trip |
| C47 | every macro input, every `to_lowercase`, every function from types to the names in them | injectivity of the name formats; lists of declared names computed; `WellScoped` (Rust's rules) iff `UserNamesOk` (conditions on the input) |
| C48 | every accepted program without a binder `value_stack`, every iterator | lock-step simulation between the module run by name and the index-based runtime model |
| C49 | every accepted program with distinct non-terminal names, every judgement `HasTy` for the user's expressions and every signature `Sig` of the user's types | typing rules for the emitted items and for Rust patterns, names resolved (`Spec/EmitTyping`); the declared patterns have their own typing rules (`FitsTy`), both emitted forms of a pattern type check iff it does; the scope of an action function computed from its statements |
| C50 | every program whose computed FIRST sets are nonempty or whose grammar is LR(1) and productive, every moment of every run | the moves between two calls of `next()` depend on the lookahead and the two top states only: termination (C07) gives a uniform bound by finiteness, amortised over the height of the stack |
| C51 | every program, every iterator that is a function of the world (`Model/Interactive.lean`) | the run invariant again, with evaluation interleaved with reading (`UIEval`) in place of `UEval`; erasing values and world gives a run of the program with trivial actions on the recorded results (`c51_control`), to which the other properties apply; `c51_fixed` shows that the fixed iterators of the other properties are a special case |
| C52 | every pair of macro inputs equal up to actions (different expression, value and world types) | every stage of the generator commutes with replacing actions (`parserMacro_mapA`); both programs are simulated by the one with erased actions |
| C53 | every accepted program, all judgements of rustc about the user's types (lifetimes in them, `Debug`) | the lifetime lists written at each place of the emitted module are fields of the model; fields of the emitted enum are exactly the written types (as C47), actions exactly the user's and the wrappers' |
| C54 | every accepted program, every action that is a function of the bound names, the value stack and the world and ends with a value, a `return` or a panic, every stream | lock-step simulation with the program whose actions do nothing: control depends on the state stack only; where all symbols are named a missing value is missing until the end |
| C55 | every two accepted programs with the same definitions of common names, harmless empty productions | the two collections of LR(1) item sets correspond (states reached by the same word of symbols have the same items, read back as user productions); lock-step simulation of the two emitted parsers along this correspondence; acceptance of small LR(1) grammars via C23, C26 and the count of item sets |
| C56 | `simulate` (lr_common.rs:204-261), and the steps of the tests before it, for every accepted program and another hash order | the stages commute with replacing actions (C52) and do not depend on the hash order (C08), so the test's table is the one the emitted arrays encode; lock-step simulation with `parse_generic`, both directions; then C01, C04, C13 for the program with erased actions |
| C57 | the texts of the panics (lower.rs:23-130, lib.rs:35-53, lr_common.rs:65-144) and the values printed in them | `Conflict` (Spec/Reject.lean) fixes the state, lookahead and both moves of the first clash; each move is carried to the user's grammar with C23's `wants_user`; the numbers are located with the loop invariant of the first pass of `lower`. Note: the `Reduce(nt, p)` of a message counts `pub` definitions twice, and an undeclared *terminal* is reported as "Unknown non-terminal" (lower.rs:123) |
| C58 | every accepted program, entry point, iterator, world | an interpreter for the fragment of Rust used by the emitted text (`Model/Rust.lean`); the text of each function (`Model/Text.lean`) is shown to do what `Model/EmitRuntime.lean` says, given that no local or static hides a name that is called (`EModule.Apart`, derived from the emitted names); loop invariant relating the cells of `parse_generic` to the modelled stacks; then C48 and C06 |
| C59 | every macro input, injective renaming of non-terminals and terminals, input of an entry point | the renamed input (`Spec/Rename.lean`) is lowered in lock-step with the original (`RenGrammar`: equal up to names); everything after lowering is shown not to depend on names (`Grammar.anon`), and the two emitted parsers run in lock-step |
| C60 | every entry point, action semantics, iterator `W → Option (Option (Except E Tok)) × W` (`none`: the call panics) | `Model/PanickingNext.lean` adds unwinding to the model of C51; lock-step with a calm iterator that returns a fresh error instead of panicking (`c60_calm`), from which the rest follows by C51 |
| C61 | every grammar, every pair of rightmost derivations | Knuth's definition (`Spec/Knuth.lean`) is shown equivalent to `ULR1`: contexts of items correspond to rightmost derivations (`UContext.rights`, `rights_context`), handles to moves; then C20, C23 and C04. `c61_counterexample` shows that the condition on productive non-terminals is needed |
| C62 | every accepted grammar, with or without silently resolved conflicts; every token stream | `UGreedy` (`Spec/Greedy.lean`) is defined on the user's grammar only. Forward: induction over the run with the forest of trees on the stack; a reduction happens only where the table has no shift and no accept, which by completeness of FIRST means that no viable prefix continues with the lookahead. Backward: induction over the derivation, shifting up to its handle; reductions are the right ones because two reductions never compete (C20). Uniqueness from C61's `c61_reduce_reduce` and the fact that a tree is determined by its tokens and postorder. |
| C63 | every accepted grammar (syntax errors: no empty computed FIRST set among used symbols); every iterator, also one sharing state with the actions | Every item of a reachable state is valid for its prefix, so if a reduction is made on a lookahead, the prefix followed by that token is viable and by determinism the run goes on to shift it; hence a run that ends in a syntax error made no step since the last call of `next()`. Lexer errors: the loop looks at the lookahead first. `c63_replaced` compares two runs. `c63_counterexample`: an unproductive non-terminal. |
| C64 | all pairs of programs that differ in types, binders and actions doing the same (`Spec/Alpha.lean`) | Lowering maps related items to grammars that are equal once types and binders are removed; FIRST, automaton, table and arrays only look at that part, and numbering the actions fails on both or none. The two run-time loops run in lock-step: same states, values equal up to the tag, using on both sides the description of a step (`StepSpec`) and that the values of symbols have the right kind. `c64_language` erases the actions first (as in C52). |
| C65 | the emitter again with every `syn::Ident::new` (`Model/Idents.lean`) | The emitter with and without the calls are related stage by stage (`Checks`): the names made up by the macro are a fixed identifier and digits, so only two kinds of strings can fail. Characters of identifiers are a parameter of which only the ASCII part is fixed. In other theorems names are strings, so `r#x` and `x` are different names there, as in the code; for rustc a binder `r#x` is the variable `x`. |
| C66 | the emitted token functions with name resolution as a parameter (`Model/Variables.lean`) | Matching a variable and matching `_` agree up to bindings the arm does not use (`matchR` related by structural induction); the macro never looks at paths, so both inputs give the same tables (`c66_macro`); `c66_compiled` then makes every other theorem apply to such programs. |
| C67 | the whole generator and the emitted parser, run on two programs | The wrapper of a `pub` non-terminal is processed right after it in every pass of first.rs, so it never sets the `updated` flag alone (`wrapper_step`, `block_step`); hence the passes over both grammars stay in step and the FIRST sets of the user's non-terminals correspond even when they are wrong (`firstTable_pub`). The simulation of C55 then applies without its `UHarmless` hypotheses. Acceptance: numbers of definitions keep their relative order and productions keep their numbers, so a clash of two items in the smaller program is a clash, in the same order, in the larger one (`stateFine_pub`). |
| C68 | the whole generator and the emitted parser, on LR(1) grammars whose FIRST sets may be wrong | `Spec/Follow.lean` defines a moment of evaluating a tree (`UTree.Cut`) and the tokens below a forest. The computed FIRST sets are always sound, so every action in a table is one the canonical LR(1) automaton also has (`Ahead`); as the grammar is LR(1), the canonical action for the rest of the sentence is unique. The invariant (`Following`, `ESetup.follow`, Proofs/Follow.lean): the stack is the frontier of a Cut of the tree, and the rest of the tree continues it; a shift or reduce found in the table must be the one the tree wants, otherwise there is none and parse returns a ParserError. Termination is that of C07 for LR(1) grammars. |
| C69 | every well-formed grammar, all hash orders; completeness needs a complete FIRST table (`c69_counterexample`), equality with the textbook's sets that everything occurs in sentential forms of non-terminal 0 | `Model/FollowSets.lean`, `Spec/FollowSets.lean` (`InFollow` is by derivations of sentential forms). `followTable_spec`: the loop ends in a table closed under the FOLLOW equations and contained in every closed predicate (each pass that reports `updated` adds an element, of which there are finitely many). Completeness by induction on the derivation of the sentential form. |
| C70 | every well-formed grammar whose non-terminal 0 is an entry point (the code starts at `NonTerminalIdx(0)`), all hash orders | `Model/LR0.lean`, `Spec/LR0.lean` (`Expects`/`Valid0` speak of productions only, `Path0` of the edges of the automaton). Invariant `Inv0` of the work-list loop (index map, edges, every state is the item set of some string, every missing edge is still to be added); it ends because states have distinct sorted item sets, of which there are at most 2^n. |
| C71 | as C70, all token sequences and hash orders; completeness needs the grammar SLR(1) and the FIRST table complete (C18) | `Model/LR0.lean` (`slrTable`), `Model/Simulate.lean`, `Spec/LR0.lean` (`SLRMove`, `IsSLR1` speak of productions and derivations only). `build_slr_table` is read as a list of attempts (`stateOps`) to write cells; every cell holds an attempted action, and all of them if no two attempts disagree. Soundness: invariant `SlrInv` (the stack spells a viable prefix deriving the tokens shifted). Completeness: the LR(1) item machine of C03 is simulated, since an LR(1) lookahead is in the FOLLOW set. Order: `c71_order` by a bisimulation of the two automata. Termination (`Proofs/LeftRec*.lean`, `Props/SLRTerminates.lean`): an endless sequence of reductions valid for the LR(0) automaton would give hidden left recursion or a cycle, excluded by C72; needs every non-terminal productive. |
| C72 | all grammars that can be lowered, with distinct names and productive non-terminals; `c72_accepted` also needs FIRST complete (C18), `c72_user` puts harmless nullable non-terminals in its place | `Spec/LeftRecursion.lean` (user grammar only). `Proofs/LeftRec.lean`: in an LR(1) grammar the parser's reductions before one lookahead are well-founded (`LR1At.acc`, from C07); hidden left recursion would let the parser reduce the nullable symbols again and again before the same lookahead, a cycle would let it reduce along the cycle, so there would be an endless run. Lifted to the user's grammar through `Lowered.user_derives`. |
| C73 | bounded: every program without repeated names, every run; unbounded: regular productive programs (`c73_user`: Knuth-LR(1), harmless nullable non-terminals) | `Spec/Space.lean` (user grammar only). `Proofs/Space.lean`: the symbols on the stack are what lies to the left of a path of productions from the entry point (`ItemsAt.spine`); a non-terminal from which such a path goes to the right can occur on it once only, else it would recurse inside (`Grammar.Spine.bounded`). Conversely the path along a repeated recursion is followed by the abstract machine of C04 (`Grammar.Ctx.stack`), which the parser simulates. |
| C74 | bounded by the height: programs whose computed FIRST sets are not empty; bounded: also no repeated names and no right recursion, or LR(1) and productive; unbounded: regular productive programs | `Spec/Latency.lean` (user grammar only). `Proofs/Latency.lean`: reductions before one lookahead are cut into phases, in each of which the stack stays above the second state from the top at its beginning; a phase is bounded (C50), and it ends with a reduction to a non-terminal that has the symbol on top of the stack at the beginning of the phase at its right end (`RedRun.phase_syms`), so the non-terminals at the ends of phases are all different unless one recurses at its right end (`RedRun.bounded`). Conversely, along a repeated recursion at the right end the stack becomes high before a bounded rest of the input, at the end of which it is small: much must be reduced between some two calls (`Iterations.slow`). `rightCheck` (not modelled code) is a sufficient check. |
| C75 | all pairs of programs with the same rules, all relations between values, tokens, errors and states (`Spec/Param.lean`) | As for C64 the two programs get the same tables (FIRST, automaton, table and arrays do not look at types, binders, patterns or actions). `Proofs/Param.lean` runs the two loops in lock-step: same states, values of each stack entry related by the relation of its symbol (`RunParam.step`). The invariant, token, error and fusion theorems are instances: relations `v = v' ∧ I v`, equality, the graph of `f`, and the graph of the evaluation. |
| C76 | all grammars in the three classes whose non-terminals derive something | `Spec/Classes.lean` (textbook definitions on the user's grammar). `Proofs/Classes.lean`: a viable prefix is recognised by the LL parser's stack with markers at the ends of productions (`Reach`); the lookahead determines it (`Reach.det`), for if a symbol of the prefix were passed over in one run and expanded in the other, its smallest derivation would contain a smaller one (`Reach.no_descend`). SLR(1) and LALR(1) by comparing the definitions; then C23, C04 and C68. `ll1Check`, `uslrCheck`, `productiveCheck` (not modelled code) check guessed sets and automata for the examples; `c76_counterexample` shows an LL(1) grammar a sentence of which is refused. |
| C77 | regular programs; every occurrence of a non-terminal in a derivation tree, every replacement | `Spec/Parts.lean` (`UTree.Replaced`, `UTree.Occurs`). `Props/Parts.lean`: a derivation is split at the subtree (`UEval.split`) and put together again (`UTree.Replaced.plug`); the value of a tree depends on a subtree only through its value and effect (`UTree.Occurs.value`); then C02 for what was returned, C05 for the uniqueness of the tree and C04 for what will be returned. The condition follows from conditions on the user's grammar by `Compiled.regular_of_user`. |
| C78 | grammars, FIRST tables, automata, tables; every hash order | `Model/Display.lean`, `Spec/Display.lean` (`Grammar.rules`, `Grammar.namedItem`, `LRAction.plain`). `Proofs/Display.lean`: each text is shown to be uniquely readable from the left, given what can follow it (`seqText_inj`, `showItem_inj`, `showAction_inj`, ...), and a sequence of lines by the first character of a line (`flatten_inj`). `Proofs/DisplayTotal.lean`: every index looked up is in range, by the invariants of C36 and C37. `Props/Display.lean`: claims, and the clash of names. Two productions of a non-terminal with the same right-hand side look the same in the dump of an automaton. |
| C79 | pairs of regular programs, every input | `Spec/Reports.lean`: the inductive `Reports L terms look` says what a parser of the language `L` is to report; it mentions no grammar. `Props/Reports.lean`: it is a partial function (`c79_unique`), what `parse` returns satisfies it (`c79_reports`, from C01, C08, C10–C13), and as `parse` ends on the input cut after `n` items (C07), it returns exactly that (`c79_iff`); hence `c79_same`. `Spec/Refactor.lean`, `Props/Refactor.lean`: rules that are admissible add no sentences (`c79_admissible`, induction on derivations), from which reordering, inlining and turning a recursion follow. The left and the right recursive grammar of sums are an instance. |
| C80 | pairs of programs, one an extension of the other; every input | `Spec/Extend.lean` (`LaterVersion`). `Props/Extend.lean`: the evaluation of a derivation carries over production by production (`LaterVersion.means`), so C02 and C04 give `c80_ok`; the rest is monotonicity of `Reports` (C79) in the language (`Reports.shrink`). `Examples.c80_counterexample`: without regularity of the new version the claim is false (finding 17). |
| C81 | programs with a list-shaped non-terminal; every input | `Spec/Assoc.lean`: `Compiled.Seq` (a sequence of phrases of `T` and their values), the three shapes of rules. `Props/Assoc.lean`: `means_induct` is induction over the phrases of one non-terminal inside an evaluation; with it the value is a left or right fold. The parser claims add C02 and C04. |
| C82 | every syntax error of a regular program | `Props/Useful.lean`: corollaries of C08, C10, C11 and of the fact that what was consumed is the beginning of a sentence (`consumed_viable`); `c82_text`: reading a list of names up to the first comma. `Examples.c82_nothing`: a message that says that nothing is expected. |
| C83 | every invocation that keeps the contract | `Spec/Contract.lean` (`Contract`: what is asked, in terms of what is written; `Kept`: what is promised about the text), `Props/Contract.lean`: composition of C02, C04, C07, C15, C23, C26, C42, C58, C65 and C79. `Examples.sum_contract`: the tokens of the grammar of sums keep it; `Examples.sum_kept`, `Examples.sum_value`. `c83_accepted`: what holds of everything the macro accepts (`Safe`), from C02, C06, C11, C12, C13, C15, C46, C58. `c83_check` (`Props/ContractCheck.lean`): a computation that finds whether a grammar keeps the contract; `Conformance/Contracts.lean` runs it on the text of every `parser!` call of tests.rs with a token enumeration: all keep it but `bug_2`, a definition of which derives no sentence. |
| C84 | programs with a tower of operator levels; every input | `Spec/Precedence.lean`: `Levels.value` evaluates an infix expression by cutting it at the loosest operators; `Infix`: operands with operators between them; `Compiled.Tower`: the shape of the rules. `Props/Precedence.lean`: each level as in C81 (`level_left`, `level_right`); a sequence of sequences is one sequence, cut (`infix_cut`); induction on the levels. The parser claims add C02 (`c84_sound`, no condition on the grammar) and C04. `Examples.ops_parse`: `+`, `-` and `^`. |
| C85 | layered grammars of expressions, any number of levels; every input | `Spec/Layered.lean`: `layeredRules` lists the rules, `Layered defs ..` says that the definitions have exactly these. `Proofs/Layered.lean`: with numbered levels; the symbol before the place where a level is expected bounds the level from below (`May`; after a prefix operator, which may be the same token as an operator between operands, only an operand), what follows it is an operator of a looser level or of the same one if that associates to the left (`Fol`); from that, all pairs of moves after the same symbols before the same terminal (`Numbered.moves`). Then C23, C04 and C84. `Examples.ops_layered`, `Examples.ops_accepted`, `Examples.arith_layered`. |
| C86 | calculators of any number of levels; every input, every user state | `Spec/Calculator.lean`: `Operand` and `Written` are expressions as they are written (no grouping), `val` is their value; `Compiled.IsCalculator` says that the definitions are a layered grammar and the actions compute what they should. C85 and C84 reduce it to the operands; soundness by induction over the number of tokens (one production of `atom` for each form, by `once`), completeness by recursion over the expression. `c86_language`, `c86_reports`: with C79, the reports for all other inputs in terms of expressions only. `Examples.ops_calculator`, `Examples.written_ok`, `Examples.written_val`, `Examples.ops_total`, `Examples.calc_inhabited`. |

Properties that are false of the code as first guessed are kept in `properties.jsonl` in the form that holds, with the necessary condition; the conditions are shown necessary by the counterexample theorems.

## Findings about the code

1. `first.rs:79-82` skips a nullable non-terminal without adding its FIRST set, and line 97 does not set `updated`: FIRST and nullability can be under-computed (`c18_counterexample`, `c18_counterexample_empty`). Consequences: sentences of LR(1) grammars are rejected (`c04_counterexample_first`), and a generated parser may loop for ever (`c07_counterexample`).
2. A shift silently overrides a reduction that was entered before it; the other order panics (`c21_silent`, C21). Ambiguous grammars can be accepted (`c05_counterexample`), and sentences lost (`c04_counterexample_shift`).
3. Accept silently overrides a reduction at end of input (C22).
4. Two definitions of one non-terminal are merged; if the earlier one is `pub` its entry point never succeeds (C27).
5. The expected list omits end of input, and may be empty (C10).
6. A one-element tuple pattern is emitted differently in the two token functions (`c28_one_tuple_differs`).
7. The order of the emitted parser structs depends on hash iteration order; nothing else does (C19).
8. `symbol0` (ast.rs:399-421) tries `LitStr` without peeking: a literal that is not a string, where a symbol is expected, is silently dropped (`c43_literal_dropped`).
9. `type X = ..` with `X` other than `State` and malformed token patterns panic without a message instead of being reported as errors (C44).
10. A binder called `value_stack` hides the parameter of the emitted action function: the macro accepts, rustc does not (C47, C48). Likewise a `pub` non-terminal called like a variable of the emitted code (`token`, `state`, `x`, `f`, `f0`, ..) or like a binder, since it is a unit struct and variables may not shadow those; or like a prelude name the code uses (`Vec`, `Option`, `Some`, ..) or a type written in the grammar. A return type of an entry point that mentions a type called `E`, and a token type called `E` or `R`, are captured by type parameters (C47).
11. Raw identifiers (`r#type`): the names of `pub` non-terminals (lr_codegen.rs:85) and of the token type (codegen.rs:149) reach `Ident::new` as text, which panics; binders and other non-terminals may be raw (C65, `c65_raw`).
12. `parser!` accepts a token enum with a lifetime that no captured type and no type of a non-terminal uses, and types that do not implement `Debug`; rustc then rejects the emitted enum `SemanticActionResult<'a>`, which derives `Debug` (`c53_unused_lifetime`, `c53_no_debug`).
13. An action that executes `return;` type-checks, since the emitted function has result type `()`; no value is pushed, and from then on the value stack is one short. The unnamed symbols' `value_stack.pop()` (no `unwrap`) hides this, so that `parse` may return `Ok` with a wrong value (`c54_wrong_value`), or panic in `unreachable!()` (`c54_unreachable`).
14. Consequence of 1: exchanging two definitions can change the language of the emitted parser (`c55_order_matters`), so can exchanging two productions of one definition (`c55_production_order_matters`), and so can adding definitions that nothing refers to (`c55_unused_matters`). Consequence of 2: whether the same grammar is accepted by the macro can depend on the order of definitions (`c55_conflict_order`).
15. Consequence of 1: a sentence of an LL(1) grammar, for which recursive descent works, can be refused (`c76_counterexample`).
16. With `pub E` and a definition `E1` of the user, two non-terminals are called `E1`; the parser works, but the dumps of automaton and table show two lines `E1 -> n` that cannot be told apart (`c78_clash`).
17. Consequence of the silent resolution of conflicts (a shift silently replaces a reduce added before it): adding one production to an accepted grammar, which the macro still accepts without a word, can turn an input that was accepted into a syntax error (`c80_counterexample`: `A = n; pub S = A +` accepts `n +`; with the additional production `S = n + (` it does not).

## Axioms per theorem

* `propext, Classical.choice, Quot.sound`: `Conformance.keeps_contract`, `Conformance.keeps_sound`, `Conformance.test_grammar_5_ok`, `Conformance.tests_keep`, `Contract.kept`, `Examples.arithVar_compiled`, `Examples.arith_alpha`, `Examples.arith_inlined`, `Examples.arith_layered`, `Examples.arith_slr1`, `Examples.arith_trees`, `Examples.arith_turned`, `Examples.c04_counterexample_first`, `Examples.c04_counterexample_shift`, `Examples.c05_counterexample`, `Examples.c07_counterexample`, `Examples.c07_lr1_counterexample`, `Examples.c10_counterexample`, `Examples.c53_no_debug`, `Examples.c53_unused_lifetime`, `Examples.c54_unreachable`, `Examples.c54_wrong_value`, `Examples.c55_order_matters`, `Examples.c55_production_order_matters`, `Examples.c55_unused_matters`, `Examples.c61_counterexample`, `Examples.c63_counterexample`, `Examples.c65_raw`, `Examples.c69_example`, `Examples.c70_example`, `Examples.c71_not_slr`, `Examples.c72_cycle_example`, `Examples.c72_hidden_example`, `Examples.c74_example`, `Examples.c75_example`, `Examples.c76_counterexample`, `Examples.c80_counterexample`, `Examples.c82_nothing`, `Examples.calc_inhabited`, `Examples.descent_ll1`, `Examples.descent_parses`, `Examples.exprGrammar_slr1`, `Examples.flat_later`, `Examples.folds_left`, `Examples.folds_regular`, `Examples.folds_repeats`, `Examples.folds_right`, `Examples.inner_greedy`, `Examples.ops_accepted`, `Examples.ops_calculator`, `Examples.ops_layered`, `Examples.ops_parse`, `Examples.ops_regular`, `Examples.ops_total`, `Examples.ops_tower`, `Examples.outer_not_greedy`, `Examples.sum_contract`, `Examples.sum_kept`, `Examples.sum_value`, `Examples.sumsR_regular`, `Examples.unusedPub_same`, `Examples.unused_accepted`, `Examples.written_ok`, `Examples.written_val`, `c01_sentence`, `c02_value`, `c03_postorder`, `c04_accepts_iff`, `c04_sentence`, `c04_user`, `c04_value`, `c05_lr1_unambiguous`, `c05_unambiguous`, `c05_user`, `c05_value_unique`, `c06_no_panic`, `c06_only_user_panics`, `c07_lr1`, `c07_productive`, `c07_terminates`, `c07_user`, `c08_first_error`, `c08_prefix`, `c08_user`, `c09_expected_sound`, `c10_expected_complete`, `c10_user`, `c11_found`, `c12_error_reached`, `c12_lexer_error`, `c13_lazy`, `c13_ok_reads_all`, `c15_entries`, `c15_entry`, `c16_automaton`, `c16_first`, `c18_first_complete`, `c18_first_enough`, `c19_automaton`, `c19_behaviour`, `c19_closure`, `c19_error`, `c19_ok`, `c20_reduce_reduce`, `c21_rejects_iff`, `c21_shift_wins`, `c21_table`, `c22_accept_wins`, `c23_lr1_accepted`, `c23_not_lr1`, `c23_user`, `c23_user_accepted`, `c24_language`, `c24_productions`, `c25_wrappers`, `c27_merged`, `c27_redefined_entry`, `c28_consistent`, `c28_first_match`, `c28_one_tuple_differs`, `c28_token_value`, `c29_arrives`, `c29_captures`, `c29_typed`, `c30_actions`, `c30_leftmost`, `c32_fits`, `c34_reduce`, `c36_canonical`, `c36_transitions`, `c37_states`, `c38_closure`, `c39_no_internal`, `c39_panics`, `c40_moment`, `c41_lr1`, `c41_progress`, `c41_user`, `c42_read`, `c42_roundtrip`, `c43_accepts_iff`, `c43_literal_dropped`, `c43_unambiguous`, `c44_definitions`, `c44_panics_iff`, `c45_ends`, `c46_accepts_iff`, `c46_writing`, `c47_conventional`, `c47_names_iff`, `c47_scoped_iff`, `c48_by_name`, `c48_value`, `c49_typed_iff`, `c50_cost`, `c50_linear`, `c50_lr1`, `c50_lr1_time`, `c50_returns`, `c50_time`, `c50_user`, `c51_complete`, `c51_first_error`, `c51_lexer_error`, `c51_linear`, `c51_lr1_progress`, `c51_moment`, `c51_panic`, `c51_parser_error`, `c51_progress`, `c51_user`, `c51_user_error`, `c51_value`, `c52_actions`, `c52_diverges`, `c52_no_panic`, `c53_lifetimes_iff`, `c54_all_named`, `c54_control`, `c54_no_return`, `c54_panics`, `c54_returns`, `c55_accepted`, `c55_common`, `c55_extend`, `c55_rearranged`, `c56_complete`, `c56_entry_states`, `c56_iff`, `c56_parser`, `c56_simulate`, `c56_sound`, `c56_table`, `c57_stable`, `c57_text`, `c57_truth`, `c58_text`, `c59_compiles`, `c59_panics`, `c60_calm`, `c60_other_panics`, `c60_panic`, `c60_value`, `c61_accepted`, `c61_knuth`, `c61_knuth_of_lr1`, `c61_parses`, `c61_reduce_reduce`, `c61_rejected`, `c62_accepts_iff`, `c62_complete`, `c62_lr1`, `c62_sound`, `c62_unique`, `c63_replaced`, `c63_syntax_error`, `c63_user`, `c64_language`, `c64_macro`, `c64_same`, `c65_accepts`, `c65_panics`, `c66_compiled`, `c66_token_fns`, `c67_accepted`, `c67_behaviour`, `c67_items`, `c67_more`, `c67_tokens`, `c68_moment`, `c68_outcome`, `c68_rearranged`, `c68_returns`, `c69_complete`, `c69_order`, `c69_sound`, `c69_terminates`, `c69_textbook`, `c70_items`, `c70_order`, `c70_paths`, `c70_prefix`, `c70_states`, `c70_terminates`, `c71_accepts`, `c71_complete`, `c71_decides`, `c71_generator`, `c71_no_panic`, `c71_order`, `c71_prefix`, `c71_rejects`, `c71_sound`, `c71_terminates`, `c71_terminates_slr`, `c72_accepted`, `c72_conflict`, `c72_not_knuth`, `c72_user`, `c73_bounded`, `c73_iff`, `c73_unbounded`, `c73_user`, `c74_bounded`, `c74_height`, `c74_iff`, `c74_lr1`, `c74_unbounded`, `c75_fusion`, `c75_invariant`, `c75_map_error`, `c75_parametric`, `c75_tokens`, `c76_accepted`, `c76_ll1`, `c76_never_wrong`, `c76_parses`, `c77_part`, `c77_sentence`, `c78_automaton`, `c78_clash`, `c78_first`, `c78_grammar`, `c78_lowered`, `c78_table`, `c78_total`, `c79_iff`, `c79_reports`, `c79_same`, `c79_unique`, `c80_error`, `c80_later`, `c80_lexer`, `c80_ok`, `c81_left_parse`, `c81_repeat_parse`, `c81_right_parse`, `c82_end`, `c82_text`, `c82_token`, `c83_accepted`, `c83_check`, `c83_contract`, `c84_parse`, `c84_sound`, `c85_accepted`, `c85_harmless`, `c85_lr1`, `c85_parse`, `c85_regular`, `c86_language`, `c86_parse`, `c86_reports`, `c86_unique`, `c86_value`
* `propext, Quot.sound`: `Examples.c21_silent`, `Examples.c55_conflict_order`, `Examples.c67_adding`, `Examples.c71_counterexample`, `Examples.c71_example`, `Examples.sum_written`, `UHarmless.of_check`, `UHarmless.of_markers`, `c14_unread_input`, `c16_closure`, `c17_first_sound`, `c18_complete_iff`, `c18_counterexample`, `c18_counterexample_empty`, `c19_first`, `c26_rejects_iff`, `c31_variants`, `c32_too_many`, `c33_arrays`, `c34_actions`, `c35_order`, `c35_rejects`, `c36_valid`, `c48_emits`, `c51_control`, `c51_fixed`, `c52_cls`, `c52_entries`, `c52_macro`, `c53_no_influence`, `c54_conservative`, `c55_messages`, `c59_rename`, `c60_noPanic`, `c63_lexer_error`, `c66_macro`, `c66_swallows`, `c69_counterexample`, `c71_lr1`, `c76_ll1_table`, `c77_replace`, `c79_inline`, `c79_recursion`, `c79_rules`, `c81_left`, `c81_repeat`, `c81_right`, `c84_value`, `c85_productive`, `not_inside_of_check`, `not_right_of_check`, `returns_unique`
* `propext`: `Grammar.HarmlessNullable.of_self`, `UTree.Cut.postorder`, `c30_innermost`, `c76_lalr1`, `c76_slr1`, `c79_admissible`
