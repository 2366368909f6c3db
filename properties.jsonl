{"id": "C01", "title": "Accepted input is a sentence of the entry point's grammar", "statement": "If `Entry::parse(iter)` returns Ok, then the tokens yielded by the iterator up to its first None form a sentence derivable from the user's non-terminal `Entry` using the productions the user wrote; nothing is skipped, invented, or left over. This holds for every grammar the macro accepts, including grammars with silently resolved conflicts.", "quantifier": "all grammars the macro accepts, all entry points, all token streams (any length)", "why_tests_cant": "A test fixes a grammar and a few inputs; the claim ranges over all grammars and all inputs, and LR automata/tables differ for each grammar.", "anchors": ["src/lr_codegen.rs:generate_lr1_parser (parse_generic)", "src/lr1.rs:generate_lr1_automaton", "src/lr1.rs:build_lr1_table", "src/lower.rs:lower"]}
{"id": "C02", "title": "The returned value is the bottom-up evaluation of the user's actions", "statement": "The value in Ok(v) is exactly the value obtained by evaluating the user's semantic actions over a derivation tree of the input, each action seeing its named symbols bound to the values of the corresponding children (token captures or non-terminal results).", "quantifier": "all accepted grammars, entry points, inputs, and all action functions", "why_tests_cant": "Values depend on the interplay of the reduce order, the pop order of the value stack and the action numbering for every grammar.", "anchors": ["src/codegen.rs:generate_semantic_action_table", "src/lr_codegen.rs:parse_generic", "src/lower.rs:lower"]}
{"id": "C03", "title": "Semantic actions run exactly once per derivation node, in post-order", "statement": "With side-effecting actions, the final world after Ok(v) is the one produced by running each node's action exactly once, children left to right before parents, the entry wrapper last.", "quantifier": "all grammars, inputs, and all stateful actions (arbitrary world type)", "why_tests_cant": "Order and multiplicity of effects must be right for every tree shape.", "anchors": ["src/lr_codegen.rs:parse_generic", "src/codegen.rs:generate_semantic_action_table"]}
{"id": "C04", "title": "Every sentence is accepted (completeness)", "statement": "If the macro accepts the grammar without resolving any conflict, then for every sentence of the entry point's language `parse` returns Ok with the value of its derivation. (False of the code in general because FIRST sets of non-terminals with nullable prefixes are under-computed; true when the computed FIRST table is complete, in particular when no production starts with a nullable non-terminal other than its own left-hand side.)", "quantifier": "all grammars (side condition on nullable prefixes), all sentences of any length", "why_tests_cant": "Infinite language; the failing grammars need a specific nullable-prefix/lookahead combination that the test-suite never hits.", "anchors": ["src/first.rs:generate_first_table", "src/lr1.rs:compute_lr1_closure", "src/lr1.rs:build_lr1_table", "src/lr_codegen.rs:parse_generic"]}
{"id": "C05", "title": "Accepted grammars are unambiguous", "statement": "If the macro accepts a grammar with a complete FIRST table and no overridden action, then every input has at most one derivation tree from each entry point (so the value returned is the only possible one).", "quantifier": "all such grammars, all inputs, all pairs of derivation trees", "why_tests_cant": "Ambiguity is a statement about all pairs of derivations of all strings; undecidable in general by enumeration.", "anchors": ["src/lr1.rs:build_lr1_table", "src/lr_common.rs:LRTableBuilder"]}
{"id": "C06", "title": "The generated parser never panics by itself", "statement": "For every grammar the macro accepts and every token stream, `parse` never hits `Stuck! (2)`, an unwrap on an empty state or value stack, an out-of-bounds table index, or an `unreachable!` value extraction: the only panics possible are those of the user's own action code.", "quantifier": "all accepted grammars, all entry points, all token streams, at every step", "why_tests_cant": "A panic could hide at any (state, token) pair of any grammar's table.", "anchors": ["src/lr_codegen.rs:parse_generic", "src/codegen.rs:semantic_action_result_type", "src/codegen.rs:generate_semantic_action_table"]}
{"id": "C07", "title": "Parsing terminates on every finite input", "statement": "For a grammar the macro accepts in which every non-terminal that occurs after another one in a production, with nothing but symbols marked empty in between, has a non-empty computed FIRST set, `parse` terminates on every stream that ends or fails, even when shift/reduce conflicts were silently resolved. The same holds, whatever FIRST sets are computed, if the grammar is LR(1), defines no name twice and every non-terminal derives some string. (Without these conditions it is false: a grammar with hidden left recursion and a non-terminal whose computed FIRST set is empty, because it derives nothing or because the computation misses that it derives the empty string, is accepted and its parser loops forever.)", "quantifier": "all grammars satisfying one of the side conditions, all finite inputs, every reachable stack", "why_tests_cant": "Non-termination cannot be observed by a finite run; unbounded chains of empty reductions depend on the grammar.", "anchors": ["src/lr_codegen.rs:parse_generic", "src/lr1.rs:compute_lr1_closure", "src/lr_common.rs:add_shift"]}
{"id": "C08", "title": "Syntax errors are reported at the first impossible token", "statement": "When `parse` returns ParserError after consuming tokens w with lookahead t: w is a prefix of a sentential form of the entry point, and (no conflicts, complete FIRST) no sentence starts with w t (or, at end of input, w is not a sentence).", "quantifier": "all grammars, all inputs", "why_tests_cant": "Needs the viable-prefix property of every reachable LR state.", "anchors": ["src/lr_codegen.rs:parse_generic", "src/lr1.rs:compute_lr1_closure"]}
{"id": "C09", "title": "Every terminal listed in `expected` really can come next", "statement": "The `expected` string of a ParserError lists, in declaration order separated by \", \", terminals that do not include the offending one, and each of them is a correct continuation: appending it to the consumed tokens gives the beginning of a sentential form. This holds for every accepted grammar, even one with silently resolved conflicts.", "quantifier": "all grammars, all erroneous inputs", "why_tests_cant": "The set depends on the lookaheads of every item in every state.", "anchors": ["src/codegen.rs:generate_expected_state_tokens", "src/lr_codegen.rs:parse_generic"]}
{"id": "C10", "title": "`expected` lists every possible next terminal", "statement": "Conversely (no conflicts, complete FIRST table, every non-terminal derives some sentence), the terminals listed in `expected` are exactly those t for which some sentence starts with the consumed tokens followed by t (end of input is never listed). Without the productivity condition it is false: a reduction on a lookahead that only an unproductive continuation allows can lead to a state that lists fewer terminals.", "quantifier": "all such grammars, all erroneous inputs, all sentences", "why_tests_cant": "Universally quantified over sentences extending the consumed input.", "anchors": ["src/codegen.rs:generate_expected_state_tokens", "src/lr_codegen.rs:parse_generic"]}
{"id": "C11", "title": "`found` names the offending token", "statement": "The `found` string of a ParserError is the user-declared name of the terminal of the first unconsumed token, or \"end-of-input\" when the stream had ended.", "quantifier": "all grammars, all erroneous inputs", "why_tests_cant": "Index agreement between the token classifier, the EOF column and the string table for all grammars.", "anchors": ["src/codegen.rs:generate_token_to_text", "src/codegen.rs:token_terminal_idx_fn", "src/lr_codegen.rs:parse_generic"]}
{"id": "C12", "title": "Lexer errors are returned verbatim, exactly when reached", "statement": "If the stream yields tokens w and then Err(e), and the parser has consumed all of w, `parse` returns LexerError(e) without running any further action; if w already contains a syntax error, the ParserError for it is returned and e is never looked at.", "quantifier": "all grammars, all token streams with an error at any position", "why_tests_cant": "Error position, table contents and stack shape are all unbounded.", "anchors": ["src/lr_codegen.rs:parse_generic"]}
{"id": "C13", "title": "The input iterator is read lazily, one token of lookahead, never past the end", "statement": "When `parse` returns, next() has been called exactly (number of consumed tokens)+1 times; in particular it is never called again after returning None or Err, so non-fused and infinite iterators are handled.", "quantifier": "all grammars, all iterators (arbitrary functions of the call number)", "why_tests_cant": "Quantifies over iterator behaviours and all runs.", "anchors": ["src/lr_codegen.rs:parse_generic"]}
{"id": "C14", "title": "The result does not depend on input that was not read", "statement": "Two iterators that agree on the items read during a parse give the same result (value, error, effects); a syntax error is independent of everything after the offending token.", "quantifier": "all grammars, all pairs of iterators", "why_tests_cant": "Relational property over pairs of unbounded inputs.", "anchors": ["src/lr_codegen.rs:parse_generic"]}
{"id": "C15", "title": "Entry points are independent", "statement": "With several `pub` non-terminals sharing one table, `X::parse` accepts only sentences of X and evaluates to X's value: an accept action belonging to one entry point is never taken while parsing another.", "quantifier": "all grammars with any number of entry points, all inputs", "why_tests_cant": "States are shared by all entry points; leakage would need a particular combination of item sets.", "anchors": ["src/lr1.rs:generate_lr1_automaton", "src/lr1.rs:build_lr1_table", "src/lr_codegen.rs:generate_lr1_parser"]}
{"id": "C16", "title": "The macro terminates", "statement": "FIRST-set iteration, item-set closure and automaton construction terminate for every grammar (with explicit bounds on the number of iterations).", "quantifier": "all grammars", "why_tests_cant": "Termination of a fixpoint loop for all inputs is not testable.", "anchors": ["src/first.rs:generate_first_table", "src/lr1.rs:compute_lr1_closure", "src/lr1.rs:generate_lr1_automaton"]}
{"id": "C17", "title": "FIRST sets are sound", "statement": "If terminal t is in the computed FIRST set of A then A derives some sentential form starting with t; if A is marked empty then A derives the empty string.", "quantifier": "all grammars, all non-terminals", "why_tests_cant": "Quantifies over all grammars and derivations.", "anchors": ["src/first.rs:generate_first_table"]}
{"id": "C18", "title": "FIRST sets are complete when nullable prefixes are harmless", "statement": "The parser generator looks up the FIRST set of a non-terminal only if it occurs in a production after another non-terminal with nothing but nullable symbols in between; to compute these sets it needs those of the non-terminals that a production of such a one reaches through a nullable prefix, and so on. Call all of these relevant. Suppose every nullable non-terminal b that a production of a relevant non-terminal A reaches through a nullable prefix has an empty production and is A itself or derives nothing that begins with a terminal (for example: there are no empty productions; or non-terminals with an empty production have no others, and no other production consists of such non-terminals only). Then for each relevant A the computed table contains every terminal that can start a string derived from A and marks A if it is nullable. If the condition holds for every non-entry non-terminal A, the same is true of all of them. In general the table is complete iff it is closed under the FIRST equations, and it is not always closed (counterexamples).", "quantifier": "all grammars", "why_tests_cant": "The code's two omissions (skipping nullable symbols' terminals, not flagging a change) only show up for particular production orders.", "anchors": ["src/first.rs:generate_first_table"]}
{"id": "C19", "title": "Generation does not depend on hash iteration order", "statement": "FIRST sets, closures, states and tables, every panic, and hence the generated parsers and their behaviour are the same for every iteration order of the hash sets and maps used during generation; only the textual order in which the parser structs are emitted may vary.", "quantifier": "all grammars, all iteration orders (arbitrary permutations)", "why_tests_cant": "A test runs with one hasher; the order space is factorial.", "anchors": ["src/first.rs:generate_first_table", "src/lr1.rs:compute_lr1_closure", "src/lr1.rs:build_lr1_table", "src/collections.rs"]}
{"id": "C20", "title": "Reduce/reduce conflicts are always rejected", "statement": "If some reachable state contains two distinct completed items with the same lookahead, the macro panics; it never silently picks one production.", "quantifier": "all grammars", "why_tests_cant": "The builder overwrites entries in item order; silent loss could occur only for specific interleavings of shift/accept/reduce insertions.", "anchors": ["src/lr_common.rs:add_reduce", "src/lr_common.rs:add_shift", "src/lr_common.rs:add_accept"]}
{"id": "C21", "title": "Shift/reduce conflicts: shift wins or the macro rejects, never reduce", "statement": "In every accepted grammar, whenever a state can shift t, the table shifts t. A shift/reduce conflict is rejected iff an item wanting the shift precedes the completed item in item order (left-hand-side declaration index, production index, cursor, lookahead); otherwise it is silently resolved to shift.", "quantifier": "all grammars, all states, all terminals", "why_tests_cant": "Outcome depends on declaration order of the whole grammar.", "anchors": ["src/lr_common.rs:add_shift", "src/lr_common.rs:add_reduce", "src/lr1.rs:build_lr1_table"]}
{"id": "C22", "title": "Accept conflicts: accept wins or the macro rejects", "statement": "In an accepted grammar a state containing a completed entry item accepts at end of input, even when another completed item has the end-of-input lookahead (the reduce is silently dropped iff it comes earlier in item order, otherwise the macro panics).", "quantifier": "all grammars, all states", "why_tests_cant": "Same as above: order dependent, needs cyclic grammars.", "anchors": ["src/lr_common.rs:add_accept", "src/lr_common.rs:add_reduce", "src/lr1.rs:build_lr1_table"]}
{"id": "C23", "title": "Conflict rejections are justified", "statement": "If the macro rejects a grammar with a conflict panic, the grammar really has an LR(1) conflict: there are a viable prefix and a lookahead for which two different parser moves are both justified by derivations from an entry point.", "quantifier": "all grammars", "why_tests_cant": "Absence of false rejections for all grammars.", "anchors": ["src/lr1.rs:build_lr1_table", "src/lr_common.rs:LRTableBuilder"]}
{"id": "C24", "title": "Lowering preserves the user's grammar", "statement": "The lowered grammar contains, for each user non-terminal, exactly the user's productions in order with symbols resolved by name, and for every `pub` non-terminal derives from its entry exactly the strings (and values) the user's grammar derives.", "quantifier": "all user grammars, all derivations", "why_tests_cant": "Name resolution through a map with renamed `pub` non-terminals, for all grammars.", "anchors": ["src/lower.rs:lower", "src/lower.rs:add_symbol"]}
{"id": "C25", "title": "Entry wrappers are well formed", "statement": "Every public lowered non-terminal has exactly one production, whose single symbol is the renamed original; public non-terminals never occur on a right-hand side; all symbol indices are in range.", "quantifier": "all user grammars", "why_tests_cant": "The asserts in the LR(1) construction rely on it for all inputs.", "anchors": ["src/lower.rs:lower", "src/lr1.rs:generate_lr1_automaton (assert)", "src/lr1.rs:build_lr1_table (assert)"]}
{"id": "C26", "title": "Ill-formed grammars are rejected, and only those", "statement": "Lowering succeeds iff terminal names are distinct, every referenced terminal and non-terminal is declared, no repetition operator and no fallible action is used; otherwise the macro panics.", "quantifier": "all user grammars", "why_tests_cant": "Both directions quantify over all grammars.", "anchors": ["src/lower.rs:lower", "src/lower.rs:add_symbol"]}
{"id": "C27", "title": "Repeated non-terminal definitions are merged silently", "statement": "Two private definitions with the same name are not rejected: the union of their productions is used, under the later definition's index.", "quantifier": "all user grammars with repeated names", "why_tests_cant": "Behaviour at an unchecked input class.", "anchors": ["src/lower.rs:lower"]}
{"id": "C28", "title": "Token classification is first-match and consistent", "statement": "A token is classified as the first declared terminal whose pattern matches it, and the value pushed for it is built by that same terminal's variant (the classifier and value functions agree) whenever patterns contain no one-element tuple pattern. With a one-element tuple pattern the two generated matches differ.", "quantifier": "all token declarations, all token values", "why_tests_cant": "Patterns and values are unbounded trees.", "anchors": ["src/codegen.rs:token_terminal_idx_fn", "src/codegen.rs:token_value_fn", "src/codegen.rs:pattern_ignore", "src/codegen.rs:generate_pattern_syn_with_idents"]}
{"id": "C29", "title": "Captured token fields arrive in pattern order", "statement": "For a matched token the captured values are the sub-values at the `<T>` positions, left to right, one per declared type, and the number of captures equals the number of declared types. They reach the user's actions so: a binder on a terminal in an action that ran is bound to exactly these values of the token at its position, in that order.", "quantifier": "all patterns, all matching tokens, all parses", "why_tests_cant": "Unbounded pattern nesting.", "anchors": ["src/codegen.rs:pattern_types", "src/codegen.rs:generate_pattern_syn_with_idents", "src/codegen.rs:token_value_fn"]}
{"id": "C30", "title": "Binder scoping", "statement": "In an action, a name refers to the leftmost symbol bound to it; in nested `<x:<y:S>>` only the innermost name is bound; unnamed symbols are dropped; every symbol of the production is popped exactly once.", "quantifier": "all productions, all value stacks", "why_tests_cant": "Depends on reverse pop order for all productions.", "anchors": ["src/codegen.rs:generate_semantic_action_table", "src/lower.rs:add_symbol"]}
{"id": "C31", "title": "Result variants are shared exactly by equal result types", "statement": "Two non-terminals use the same stack-value variant iff their declared types are equal; extraction in an action always meets the variant it expects.", "quantifier": "all grammars", "why_tests_cant": "Relies on the numbering for all type lists and on the stack discipline.", "anchors": ["src/codegen.rs:semantic_action_result_type"]}
{"id": "C32", "title": "Size limits are enforced, never wrapped", "statement": "If the macro succeeds, all indices fit their narrow types and decode to the intended values: more than 65536 semantic actions, a production longer than 65535 symbols in a reduce, or a state number above u32::MAX make the macro panic rather than truncate.", "quantifier": "all grammars of any size", "why_tests_cant": "Limits cannot be reached in unit tests.", "anchors": ["src/codegen.rs:SemanticActionIdx", "src/lr_codegen.rs:generate_action_array", "src/lr_codegen.rs:generate_goto_array"]}
{"id": "C33", "title": "The emitted arrays represent the tables exactly", "statement": "ACTION has n_states rows of n_terminals+1 entries (last is end-of-input), GOTO n_states rows of n_non_terminals, and each entry is the map entry of the LR table; EXPECTED_TERMINALS and TERMINAL_STRS have the matching lengths.", "quantifier": "all grammars, all states, terminals, non-terminals", "why_tests_cant": "All index combinations.", "anchors": ["src/lr_codegen.rs:action_table_vec", "src/lr_codegen.rs:generate_goto_vec", "src/lr_codegen.rs:generate_action_array", "src/codegen.rs:generate_token_to_text"]}
{"id": "C34", "title": "A reduce runs the action of its own production", "statement": "Semantic action indices are a bijection between productions (in declaration order) and 0..n, and entry i of SEMANTIC_ACTIONS is the function built from production i's symbols and action.", "quantifier": "all grammars", "why_tests_cant": "Flat numbering across nested lists for all grammars.", "anchors": ["src/codegen.rs:generate_semantic_action_table"]}
{"id": "C35", "title": "Top-level items may come in any order; exactly one token enum", "statement": "The macro panics iff there is no `enum Token`, more than one, or more than one `type State`; otherwise the result depends only on the token enum and the sequence of non-terminals, not on how the items are interleaved.", "quantifier": "all item lists", "why_tests_cant": "All interleavings.", "anchors": ["src/lib.rs:parser"]}
{"id": "C36", "title": "States are exactly the canonical LR(1) collection", "statement": "The item set of the state reached from an entry by a symbol string contains exactly the items valid (w.r.t. the computed FIRST table) for that string; the automaton is deterministic, and a transition exists iff some item expects the symbol.", "quantifier": "all grammars, all symbol strings", "why_tests_cant": "Infinitely many strings.", "anchors": ["src/lr1.rs:compute_lr1_goto", "src/lr1.rs:generate_lr1_automaton"]}
{"id": "C37", "title": "No duplicate and no unreachable states", "statement": "Distinct states have distinct item sets and every state is reachable from an entry state.", "quantifier": "all grammars", "why_tests_cant": "Needs the sharing-map invariant across all iterations.", "anchors": ["src/lr1.rs:generate_lr1_automaton"]}
{"id": "C38", "title": "Item-set closure is the least closed set", "statement": "Closure returns precisely the least set of items containing the given ones and closed under the LR(1) prediction rule with the computed FIRST sets.", "quantifier": "all grammars, tables and item sets", "why_tests_cant": "Worklist order and sharing for all inputs.", "anchors": ["src/lr1.rs:compute_lr1_closure"]}
{"id": "C39", "title": "Every panic of the macro names a cause that is really there", "statement": "Whenever `parser!` panics, the message is one of the documented ones and its cause is present in the input: duplicate/missing `enum Token` or `type State`, duplicate terminal, undefined terminal or non-terminal, repetition or fallible action, exceeded size limit, or a conflict between two moves justified by derivations. Internal failures (index out of bounds, assertion, unwrap on None, shift overriding shift or accept, endless loop) never happen.", "quantifier": "all macro inputs (fewer than 2^32 non-terminals) and all hash iteration orders", "why_tests_cant": "Absence of every internal panic over all grammars needs invariants of every stage.", "anchors": ["src/lib.rs:parser", "src/lower.rs:lower", "src/lr_common.rs:LRTableBuilder", "src/lr_codegen.rs:generate_lr_parser", "src/codegen.rs:generate_semantic_action_table"]}
{"id": "C40", "title": "Every moment of a parse is a partial bottom-up evaluation", "statement": "At every moment of a call of `parse`, also of one that never returns, the tokens pulled so far are one more than the tokens consumed, and the actions executed so far are exactly those of a forest of complete derivations over the consumed tokens, each run once, children before parents and left to right; that forest is the beginning of a sentential form of the entry point's non-terminal.", "quantifier": "all accepted programs, entry points, iterators (also infinite ones), worlds and moments of the run", "why_tests_cant": "Ranges over every intermediate state of every run, including endless runs.", "anchors": ["src/lr_codegen.rs:generate_parse_fn", "src/codegen.rs:generate_semantic_action_table"]}
{"id": "C41", "title": "Progress on endless inputs", "statement": "If no non-terminal has an empty computed FIRST set, or the grammar is LR(1) without repeated names and every non-terminal derives some string, then for every n the parser either returns after at most n calls of `next()` or eventually calls `next()` more than n times: it never computes for ever without asking for input.", "quantifier": "all such accepted programs, entry points, iterators (also infinite ones), worlds and n", "why_tests_cant": "A liveness property of infinite runs.", "anchors": ["src/lr_codegen.rs:generate_parse_fn", "src/lr1.rs:generate_lr1_automaton"]}
{"id": "C42", "title": "Well-formed macro input is read as written", "statement": "If the tokens given to `parser!` are a writing of a list of items in the documented syntax (type definition, token enum, non-terminal definitions with productions, named, repeated and plain symbols, (in)fallible actions), reading succeeds and yields exactly these items, in order. Conversely every list of items can be written down so that it is read back unchanged, provided its names are not keywords and `syn` reads back its types, expressions, paths and literals.", "quantifier": "all token lists, all lists of items, all instances of syn's type, expression and path parsers", "why_tests_cant": "Ranges over all inputs of unbounded size and nesting.", "anchors": ["src/ast.rs:Parser::parse", "src/ast.rs:GrammarItem::parse", "src/ast.rs:NonTerminal::parse", "src/ast.rs:Symbol::parse", "src/ast.rs:Pattern::parse"]}
{"id": "C43", "title": "Only well-formed macro input is accepted, and it has one meaning", "statement": "Reading succeeds with some items exactly when the tokens are a writing of these items in a syntax that differs from the documented one in one point: a literal other than a string may come before a non-terminal or named symbol and is silently dropped. No token list is a writing of two different inputs.", "quantifier": "all token lists", "why_tests_cant": "Soundness of a recursive-descent reader for inputs of unbounded size; unambiguity compares all pairs of readings.", "anchors": ["src/ast.rs:symbol0", "src/ast.rs:Production::parse", "src/ast.rs:Parser::parse"]}
{"id": "C44", "title": "When reading the macro input panics", "statement": "Reading the macro input panics exactly if, after well-formed items, there is a `type` definition with a name other than `State`, or a token enum in which, after well-formed conversions, a pattern (or one nested in it) does not begin like a pattern, something follows `..` in a struct pattern, or a field of a struct pattern is followed by something else than `,`, `..` or the end. All other malformed inputs are reported as errors; definitions of non-terminals never make reading panic.", "quantifier": "all token lists", "why_tests_cant": "An exact characterisation of the failing inputs among infinitely many.", "anchors": ["src/ast.rs:Pattern::parse", "src/ast.rs:TypeDef::parse"]}
{"id": "C45", "title": "Reading the macro input terminates", "statement": "Every loop and recursion in the reader ends on every input.", "quantifier": "all token lists", "why_tests_cant": "Termination for all inputs.", "anchors": ["src/ast.rs:Parser::parse", "src/ast.rs:Production::parse", "src/ast.rs:TokenEnum::parse", "src/ast.rs:Symbol::parse"]}
{"id": "C46", "title": "The way the input is written does not matter", "statement": "Two token lists that are writings of the same items (optional commas, spacing, braces around a single production) make `parser!` do the same. `parser!` accepts exactly the writings of item lists for which generation succeeds, with that result.", "quantifier": "all pairs of token lists, all hash iteration orders", "why_tests_cant": "Compares all pairs of inputs.", "anchors": ["src/lib.rs:parser", "src/ast.rs"]}
{"id": "C47", "title": "The names in the emitted module never clash", "statement": "rustc finds no duplicate item, no prelude name or user type with a changed meaning, and no variable hiding a unit struct, a static or the parameter `value_stack` in the emitted module, if and only if the names the user chose satisfy an explicit list of conditions (pub non-terminals pairwise distinct and not among the reserved names, not bound in a production; no binder `value_stack`; written types do not mention names the module declares). The names made up by the macro never clash with each other. For users following Rust's naming conventions only 17 names are reserved.", "quantifier": "all accepted macro inputs, hash iteration orders, lowercase functions and type-name functions", "why_tests_cant": "The set of generated names depends on the number of tokens, types, non-terminals and productions, without bound.", "anchors": ["src/codegen.rs:generate_semantic_action_table", "src/codegen.rs:semantic_action_result_type", "src/codegen.rs:token_value_fn", "src/lr_codegen.rs:generate_lr1_parser"]}
{"id": "C48", "title": "The emitted code refers to the right items", "statement": "When the emitted module is run with every function, method, enum variant, field and variable looked up by its emitted name, every parser struct has exactly the outcomes that the generated tables and the user's actions define, and no name is missing or of the wrong shape, provided no binder is called `value_stack`.", "quantifier": "all accepted macro inputs, entry points, iterators and worlds", "why_tests_cant": "Must hold for every grammar, every input and every naming of tokens and non-terminals.", "anchors": ["src/codegen.rs:generate_semantic_action_table", "src/codegen.rs:semantic_action_result_type", "src/codegen.rs:token_value_fn", "src/codegen.rs:token_terminal_idx_fn", "src/lr_codegen.rs:generate_lr1_parser"]}
{"id": "C49", "title": "The emitted module type checks exactly when the user's code does", "statement": "For a grammar without doubly defined non-terminals, the emitted enum, its methods, the semantic action functions, `token_value`, the `parse` functions and the array lengths type check if and only if every action the user wrote has the type declared for its non-terminal in the scope of its bound names (type and `mut` of the leftmost symbol of that name; a terminal has the types captured by its pattern), every token pattern fits the token type with each captured field having the type written for it, and no binder is called `value_stack`. So a type error in the emitted code is always a type error in the user's code.", "quantifier": "all accepted macro inputs, all typing judgements for the user's expressions and all declarations of the user's token types", "why_tests_cant": "Ranges over all grammars, types and actions.", "anchors": ["src/codegen.rs:semantic_action_result_type", "src/codegen.rs:generate_semantic_action_table", "src/codegen.rs:token_value_fn", "src/lr_codegen.rs:generate_lr1_parser", "src/lr_codegen.rs:generate_action_array", "src/lr_codegen.rs:generate_goto_array"]}
{"id": "C50", "title": "Parsing takes linear time and space", "statement": "If no computed FIRST set is empty (for example for every regular productive grammar), or the grammar is LR(1) without repeated names and every non-terminal derives some string, there is a constant K depending only on the macro input such that at every moment of every call of `parse` the number of loop iterations done, the number of semantic actions executed and the total size of the stacks are at most K times the number of calls of `next()` so far; so on a stream that ends or fails after n tokens `parse` returns within K*(n+1) iterations.", "quantifier": "all accepted macro inputs with nonempty computed FIRST sets, all entry points, all token streams (finite or infinite), all moments", "why_tests_cant": "An asymptotic bound over all inputs; empty productions and chains of unit productions could make the work between two tokens grow with the stack.", "anchors": ["src/lr_codegen.rs:parse_generic", "src/lr1.rs:build_lr1_table", "src/first.rs:generate_first_table"]}
{"id": "C51", "title": "A lexer that looks at what the actions did works as expected", "statement": "Let what `next()` returns depend on the side effects of the actions (a lexer consulting a symbol table) and vice versa. If `parse` returns Ok(v), then `next()` returned tokens and then None, the tokens are a sentence, and v and the final state are those of evaluating its derivation interleaved with reading, where each token is read exactly when the previous one is consumed: one token ahead, before the actions waiting for it. Conversely (regular programs) a successful interleaved evaluation is what `parse` returns. At every moment the state is that of the interleaved evaluation of a forest over the consumed tokens. Apart from panics of actions control depends on the results of `next()` only: the error, prefix, progress and linearity properties hold for the sequence of results.", "quantifier": "all accepted macro inputs, entry points, all state-dependent iterators, all initial states, all moments", "why_tests_cant": "Ranges over all interactions between an arbitrary stateful lexer and arbitrary actions.", "anchors": ["src/lr_codegen.rs:parse_generic"]}
{"id": "C52", "title": "The actions do not influence parsing", "statement": "If two macro inputs differ only in their actions (same definitions, types, symbols, tokens), the macro accepts both or fails on both with the same error, emits the same tables, and on every input stream both parsers make the same number of calls of `next()` and return the same kind of outcome: both Ok, or the same lexer error, or a syntax error with the same `found` and `expected`, unless an action panics before. If one does not return, the other does not either, unless an action panics.", "quantifier": "all pairs of macro inputs equal up to actions, all action semantics and states, all entry points and token streams", "why_tests_cant": "Relates the runs of all pairs of programs.", "anchors": ["src/lr_codegen.rs:parse_generic", "src/codegen.rs:generate_semantic_action_table", "src/lower.rs:lower"]}
{"id": "C53", "title": "Lifetimes and Debug in the emitted code", "statement": "The emitted module passes rustc's checks of lifetimes and `Debug` exactly if the lifetimes of the token enum are declared once each under allowed names, are as many as the user's token type takes, each occurs in some captured type or type of a non-terminal, the types and actions mention no other lifetimes, and all these types implement `Debug`. In particular `parser!` itself accepts an unused lifetime or a type without `Debug`, and rustc then rejects the emitted code. Lifetimes have no influence on the parser: which ones are written changes neither acceptance by the macro nor the tables.", "quantifier": "all accepted macro inputs, all hash iteration orders, all judgements of rustc about the user's types and expressions", "why_tests_cant": "Ranges over all grammars and all type systems of the user's code; unit tests compile a few.", "anchors": ["src/ast.rs:TokenEnum", "src/codegen.rs:semantic_action_result_type", "src/codegen.rs:generate_semantic_action_table", "src/codegen.rs:token_value_fn", "src/lr_codegen.rs:generate_lr1_parser"]}
{"id": "C54", "title": "Actions that leave the emitted function early", "statement": "An action is pasted into a function `fn(&mut Vec<..>)`, so it may `return;`, look at the variable `value_stack`, and on a path that returns change it. Whatever actions do in this way: unless there is a panic, `parse` returns `Ok`, the same lexer error or the same syntax error, after as many calls of `next()`, as with actions that do nothing; the only panics are those of actions, `unwrap` on an empty value stack and `unreachable!()`. If no action returns, only actions panic. If every symbol of every production is named, `Ok` is only ever returned with the right value, i.e. if no action has returned; if some are unnamed, a `return` can silently lead to a wrong value.", "quantifier": "all accepted macro inputs, all actions (arbitrary functions of the bound names, the value stack and the world, that end with a value, a return or a panic), all token streams, all entry points", "why_tests_cant": "Ranges over all grammars, all actions and all inputs; the project's tests use no action of this kind.", "anchors": ["src/codegen.rs:generate_semantic_action_table", "src/lr_codegen.rs:generate_lr1_parser"]}
{"id": "C55", "title": "The order of declarations and unused definitions do not matter", "statement": "For grammars where FIRST is computed correctly (no non-terminal that can derive the empty string is placed where first.rs goes wrong; `UHarmless`): if two accepted macro inputs define the names they have in common with the same productions, in any order, and match tokens alike, entry points of the same name behave the same on every stream: same return or divergence, same value, same side effects in the same order, same number of calls of `next()`, same errors, with `expected` listing the same terminals in each program's declaration order. In particular (a) reordering items, productions and token declarations (when no token matches two patterns) changes nothing else, and for small LR(1) grammars not acceptance by the macro either; (b) adding definitions changes nothing for the old entry points. For other grammars this is false of the code: exchanging two definitions, exchanging two productions of a definition, or adding unused definitions, can change the language; and whether a conflict is reported depends on the order of definitions.", "quantifier": "all pairs of accepted macro inputs with the same definitions of common names and harmless empty productions, all hash iteration orders, all entry points, streams, actions and states", "why_tests_cant": "Relates all runs of all pairs of grammars.", "anchors": ["src/lower.rs:lower", "src/first.rs:generate_first_table", "src/lr1.rs:generate_lr1_automaton", "src/lr1.rs:build_lr1_table", "src/lr_codegen.rs:generate_lr1_parser"]}
{"id": "C56", "title": "The simulator of the project's tests does what the emitted parser does", "statement": "The project's tests never run emitted parsers; they build FIRST sets, automaton and table of a grammar whose actions are `()` and run `simulate` on lists of terminals. For every grammar the macro accepts: those steps succeed for every hash iteration order; the entry points of the emitted parsers are the states 0, 1, .. in the order of the pub definitions; and `simulate`, which always starts in state 0, ends normally on a token list iff the emitted parser of the first pub definition returns Ok on it, and panics with `Stuck! state` iff that returns a syntax error, after as many calls of next(), and runs forever iff that does (unless an action panics). `simulate` has no other panic. Hence a passing simulate test shows that its list is a sentence, and for LR(1) grammars with harmless empty productions it passes exactly for the sentences.", "quantifier": "all macro inputs accepted, all hash iteration orders (different ones for the test and the macro), all replacements of the actions, all finite or infinite lists of tokens", "why_tests_cant": "It is about what the tests themselves can show: relates all runs of two different programs.", "anchors": ["src/lr_common.rs:simulate", "src/lr1.rs:simulate1", "src/lr1.rs:build_lr1_table", "src/parser.rs:parse_generic"]}
{"id": "C57", "title": "The texts of the macro's panics tell the truth", "statement": "When the macro panics with `(q, la): Overriding .. with ..`, the panic comes from the first state with a clash and what the message names is right about the user's grammar: there are a pub definition and symbols that have been recognised such that, before the lookahead named in the message (None: the end of the input), both the old move and the new one are right, and they differ. In `Reduce(n, p)`, n is the number of a definition where definitions are counted from 0 and pub definitions twice, and p the number of its production; of two reductions the one that comes first in the grammar is named first. The texts about missing, duplicate or undeclared definitions are true of the input as well. Every panic of the macro has a text written in this code except those caused by sizes (u16/u32 overflow), and compiling again, with other hash iteration orders, prints the same text.", "quantifier": "all macro inputs that are rejected, all hash iteration orders", "why_tests_cant": "Which conflict is found first, and whether its two moves can really both happen, depends on the LR(1) automaton of the whole grammar and on hash orders; there are no tests of the messages.", "anchors": ["src/lr_common.rs: LRTableBuilder::add_shift, add_reduce, add_accept", "src/lr1.rs: build_lr1_table", "src/lower.rs: lower, add_symbol", "src/lib.rs: parser"]}
{"id": "C58", "title": "Executing the emitted text statement by statement is what the theorems are about", "statement": "Take the module the macro emits as program text - the parse function of each parser struct, parse_generic with its loop, matches, stacks and mem::replace, the two token functions, the action functions, the extraction methods and the tables - and execute it statement by statement as Rust does, with variables in memory cells, &mut references, shadowing, loop, match, if let, for, return, break, index panics and unwrap panics. Then calling Name::parse has exactly the outcomes (returned Result or panic, side effects, number of next() calls) that the other properties describe for that entry point, including running forever; and nothing that is executed is ill-formed (undefined name, wrong number of arguments, no such method, no matching arm). Requires that no binder is called value_stack and pub non-terminals have distinct names.", "quantifier": "all macro inputs accepted, all hash iteration orders, all entry points, all finite or infinite iterators, all worlds and all actions", "why_tests_cant": "The project's tests never run the emitted text on more than a few inputs; equality of the two programs is about every grammar and every run.", "anchors": ["src/lr_codegen.rs: generate_lr1_parser (quote! of parse_generic, parser_structs)", "src/codegen.rs: generate_semantic_action_table, semantic_action_result_type, token_value_fn, token_terminal_idx_fn"]}
{"id": "C59", "title": "The names of non-terminals and terminals do not matter", "statement": "Rename the non-terminals of a grammar and its terminals consistently (definitions, uses, token declarations), different names staying different. Then the macro accepts the result iff it accepted the original; if it panics, it panics for the same reason, about the renamed name; the entry points are the same, with the new names and in the same order, and each of them behaves on every input as before: same results, effects, number of next() calls, panics, divergence. Only the names of terminals in syntax errors change, to the new ones. This holds whatever the new names are: also if a non-terminal is given the name the macro makes up for the definition behind a pub non-terminal (`Expr1` for `pub Expr`), or a terminal is called `end-of-input`.", "quantifier": "all macro inputs, all injective renamings of non-terminals and terminals, all hash iteration orders, all inputs of all entry points, all worlds", "why_tests_cant": "A relation between all runs of infinitely many programs; tests use a few fixed names, and name clashes show up only with particular names.", "anchors": ["src/lower.rs: lower, add_symbol", "src/grammar.rs: Grammar::add_non_terminal, new_terminal", "src/codegen.rs: generate_expected_state_tokens, generate_token_to_text", "src/lr_codegen.rs: generate_lr1_parser"]}
{"id": "C60", "title": "A panic of next() ends parse at once, and changes nothing before it", "statement": "Let the token iterator be one whose next() may panic, and may depend on and change the state the actions use. If a call of next() panics, parse ends there: no further action is run and next() is not called again, the state is the one the panicking call left behind, and the calls that returned before, and the actions run between them, are exactly those of a run with an iterator that returns a special lexer error instead of panicking. A panic of next() cannot end as Ok or Err. If no call panics, parse behaves exactly as with iterators that never panic, and the only other panics are those of the user's actions.", "quantifier": "all accepted grammars, entry points, user actions, iterators (with arbitrary state, effects and panics), initial states, run lengths", "why_tests_cant": "Ranges over all iterators and all points at which one of their calls may panic, for every grammar.", "anchors": ["src/lr_codegen.rs: generate_lr1_parser (parse_generic: input.next(), mem::replace, the loop)"]}
{"id": "C61", "title": "LR(1) means what the textbook says", "statement": "Call the grammar of a `pub` non-terminal S LR(1) if it satisfies Knuth's definition: whenever S' =>* alpha A w => alpha beta w and S' =>* gamma B x => alpha beta y are rightmost derivations (S' -> S a new start production) and w and y begin with the same terminal or are both empty, then alpha = gamma, the last productions are the same and x = y. If every non-terminal that is used derives some string, a grammar all of whose `pub` non-terminals are LR(1) is accepted by the macro (up to the size limits), the macro reports a conflict only for grammars that are not, and if moreover no nullable symbol is in the way of FIRST, parse accepts exactly the sentences. Without the condition on used non-terminals this is false (a grammar with an unproductive non-terminal is LR(1) by the definition and rejected). Conversely an accepted grammar (FIRST harmless) never has two different productions competing at the end of the same prefix with the same next terminal.", "quantifier": "all grammars with distinct non-terminal names, all rightmost derivations, all hash iteration orders, all inputs", "why_tests_cant": "Knuth's definition quantifies over all pairs of rightmost derivations, an infinite set, and the claim over all grammars.", "anchors": ["src/lr1.rs: generate_lr1_automaton, compute_lr1_closure, build_lr1_table", "src/lr_common.rs: LRTableBuilder::add_shift, add_reduce, add_accept", "src/lib.rs: parser"]}
{"id": "C62", "title": "Silently resolved conflicts: the parser finds the shift-preferring derivation, and only it", "statement": "The macro accepts some grammars with conflicts (a shift silently replaces a reduction, accepting silently replaces a reduction); what the parser does is then determined by the grammar alone. Call a rightmost derivation shift-preferring if no step of it could be undone too early: having recognised alpha beta, no viable prefix continues with alpha beta followed by the next terminal, and at the end of input alpha beta is not the start symbol itself. If `parse` returns Ok(v), the tokens have a shift-preferring derivation, v and the effects are those of its tree, in the order of the derivation read backwards. A token string has at most one such tree, even if the grammar is ambiguous. Conversely, if a token string has one, `parse` returns its value (or panics if evaluating it panics); so if actions do not panic exactly the strings with a shift-preferring derivation are accepted. For LR(1) grammars every rightmost derivation is shift-preferring. In the dangling-else grammar the else belongs to the inner if.", "quantifier": "all accepted grammars (with or without silently resolved conflicts) with distinct names in which no nullable symbol is in the way of FIRST (completeness: and every used non-terminal derives some string), all entry points, all token streams, all actions", "why_tests_cant": "Which reading of an ambiguous input is chosen must agree with one rule for every grammar and every input.", "anchors": ["src/lr_common.rs:LRTableBuilder", "src/lr1.rs:build_lr1_table", "src/lr_codegen.rs:parse_generic"]}
{"id": "C63", "title": "Errors are detected before any further action is run", "statement": "When `parse` returns a syntax error and no non-terminal used by the grammar has an empty computed FIRST set (in particular: distinct names, no nullable symbol in the way of FIRST, every non-terminal derives some string), the state is exactly the one in which the last call of `next()` left it: no action ran after the offending token (or the end of input) was read; that call was made in the initial state or in a state the parse went through. The same holds for every grammar when a lexer error is returned. Consequently, if the iterator does not share state with the actions, replacing the offending token by a lexer error leaves the actions' effects unchanged: they are decided by the tokens before it. Without the condition this is false: a grammar with an unproductive non-terminal runs an action on a token that can only be an error.", "quantifier": "all accepted grammars (syntax errors: with the condition), all entry points, all iterators including ones sharing state with the actions, all actions, all initial states", "why_tests_cant": "It must hold at every point of every failing parse of every grammar; canonical LR(1) has this property, LALR or default reductions do not, and no finite set of inputs distinguishes them for all grammars.", "anchors": ["src/lr_codegen.rs: parse_generic, generate_action_vec", "src/lr1.rs: compute_lr1_closure, build_lr1_table", "src/first.rs: generate_first_table"]}
{"id": "C64", "title": "Types, binder names and the wording of actions do not matter", "statement": "Take two macro inputs that differ only in the types of non-terminals, token enum, captured fields and `type` items, in the binders (names, `mut`, whether a symbol is bound at all) and in how actions are written, where corresponding actions compute the same from the values of the symbols. The macro accepts both or panics alike on both; it then emits parsers of the same names, and called on any token stream in any initial state the two parsers do the same: same Ok value, lexer error or syntax error, same effects, same number of calls of next(), or both do not return. If the actions are arbitrary, the two parsers still return the same kind of outcome (Ok, the same lexer error, the same syntax error) after the same number of calls, unless an action panics. In particular giving two non-terminals the same or different types (which decides whether they share a variant of the value enum) is not observable.", "quantifier": "all pairs of grammars so related, all hash iteration orders, all token streams, actions and initial states", "why_tests_cant": "It compares two programs for every grammar, every choice of types and names and every input.", "anchors": ["src/codegen.rs: semantic_action_result_type, generate_semantic_action_table", "src/parser.rs: Symbol, Name", "src/lower.rs: lower, add_symbol", "src/lr_codegen.rs: generate_lr1_parser"]}
{"id": "C65", "title": "Which names may be raw identifiers", "statement": "A macro input in which some names are raw identifiers (r#type) is accepted exactly if it would be accepted with the form of the names disregarded, and no `pub` non-terminal and not the token type have a raw name: only these two are turned into an identifier from their text (Ident::new panics on the text r#type). The emitted module is then the same as if the form of names did not matter. Names of non-terminals that are not pub, of binders and in patterns may be raw. If Ident::new panics, then with such a raw name (or the name of the token function made from it); none of the names the macro makes up itself (Token0, non_terminal_3, nt1p2_action, ..) can cause such a panic, for any grammar.", "quantifier": "all macro inputs, all ways to write names raw or not, all hash iteration orders", "why_tests_cant": "It excludes a class of panics for every grammar and every number in a generated name.", "anchors": ["src/lr_codegen.rs: generate_lr1_parser (syn::Ident::new)", "src/codegen.rs: token_terminal_idx_fn, token_value_fn, semantic_action_result_type, generate_semantic_action_table, generate_pattern_syn_with_idents_", "src/lower.rs: lower"]}
{"id": "C66", "title": "Path patterns that are variables", "statement": "If rustc takes a path in a token pattern for a variable (a single name that is not in scope as a constant or unit variant), and accepts the emitted arms (no variable twice in one pattern), the generated parser behaves in every respect (token classification, token values, tables, results) as the parser of the same grammar with `_` in place of that path. In particular a terminal whose whole pattern is such a name takes all tokens not taken by earlier terminals: no token is ever classified as a terminal declared after it.", "quantifier": "all macro inputs, all sets of names not in scope, all token values, all hash iteration orders", "why_tests_cant": "It ranges over all patterns, all scopes and all token values.", "anchors": ["src/codegen.rs: pattern_ignore, generate_pattern_syn_with_idents_, token_terminal_idx_fn, token_value_fn", "src/ast.rs: parse_pattern"]}
{"id": "C67", "title": "pub and the order of token declarations never matter", "statement": "If two programs differ only in which definitions are `pub` and in the order of their token declarations (no token matching two token patterns), the entry points they have in common behave the same: same values, same errors (up to the order in which the expected terminals are listed), same side effects of actions, same number of calls of next(). Adding `pub`s keeps all entry points. Removing `pub`s or reordering token declarations never makes the macro reject an accepted program. Unlike the order of definitions and unused definitions (C55), this holds of every grammar, also where FIRST sets are computed wrongly. Adding a `pub` can make the macro reject, because conflicts reachable only from definitions that are not used are not looked for.", "quantifier": "all macro inputs with distinct names and numbers within the u16 limits (acceptance) resp. all accepted programs (behaviour), all token streams, all worlds, all hash iteration orders of both expansions", "why_tests_cant": "It compares two expansions on all inputs, for all grammars, and depends on the passes of the FIRST computation never being influenced by the wrapper non-terminals.", "anchors": ["src/lower.rs: lower (wrapper of a pub non-terminal is added right after it)", "src/first.rs: generate_first_table", "src/lr1.rs: generate_lr1_automaton, build_lr1_table", "src/lr_codegen.rs: generate_lr1_parser"]}
{"id": "C68", "title": "LR(1) grammars are never parsed wrongly, at worst refused", "statement": "Let the grammar be LR(1) (in the user's notation, non-terminal names distinct) and the macro accept it. FIRST sets may be computed wrongly (C55); still, on a stream of tokens that is a sentence of the entry point: (a) at every moment while parse runs, the actions run so far are those of one moment of the left-to-right bottom-up evaluation of THE derivation tree of the sentence, over exactly the tokens taken before the current lookahead: no action of a wrong production is ever run, none out of order, none twice; (b) if parse returns, it returns the value and side effects of that derivation having called next() once per token and once more, or it panics because evaluating that derivation panics, or it returns a ParserError (the sentence is refused); never a wrong value, never an internal panic; (c) if moreover every non-terminal derives some sentence, parse does return; (d) two arrangements of the same definitions (order, unused definitions) therefore never return different values for the same input: where one returns a value, the other returns the same value with the same side effects after as many calls of next(), or a ParserError.", "quantifier": "all accepted LR(1) grammars, all entry points, all sentences (tokens), all initial worlds, all actions, all moments of all runs, all hash iteration orders (of both expansions)", "why_tests_cant": "It is a statement about grammars on which the generator's FIRST sets are wrong: the damage must be bounded for all of them, on all sentences and at all moments.", "anchors": ["src/first.rs: generate_first_table, FirstSet", "src/lr1.rs: generate_lr1_automaton, build_lr1_table, compute_lr1_closure", "src/lr_codegen.rs: generate_lr1_parser, generate_parse_fn"]}
{"id": "C69", "title": "FOLLOW sets (follow.rs) are the textbook's", "statement": "generate_follow_table terminates. Every terminal it puts in the set of a non-terminal comes right after it in a sentential form of some non-terminal, and if it says that the end of the input can follow, a sentential form of non-terminal 0 ends with it. If the FIRST table it is given is complete, everything that can follow is in the sets, and if every non-terminal that has a production occurs in a sentential form of non-terminal 0, the sets are exactly the FOLLOW sets of the textbook for start symbol 0. The sets do not depend on hash iteration orders. With the FIRST table as computed today (C18) sets can be too small. (The module follow.rs is in the repository but switched off in lib.rs; the property concerns its code, read over today's Grammar type.)", "quantifier": "all well-formed grammars (as lower produces them) with at least one non-terminal, all hash iteration orders", "why_tests_cant": "It is a statement about the least fixpoint of the FOLLOW equations for all grammars; the tests compare the sets of three fixed grammars.", "anchors": ["src/follow.rs: generate_follow_table, FollowTable::add_follow, FollowTable::set_end, FollowSet", "src/first.rs: generate_first_table"]}
{"id": "C70", "title": "The LR(0) automaton (lr0.rs) is the textbook's", "statement": "compute_lr0_automaton terminates (the work list runs empty, every closure loop ends). The state reached by reading a string of symbols consists of exactly the LR(0) items valid for that string; a string can be read iff some item is valid for it, it leads to one state only, and it begins a sentential form of non-terminal 0. Every state is reached by some string and no two states have the same items. Hash iteration orders decide only about the numbering of the states. (The module lr0.rs is in the repository but switched off in lib.rs; the property concerns its code, read over today's Grammar type.)", "quantifier": "all well-formed grammars (as lower produces them) whose non-terminal 0 is an entry point, all strings of symbols, all hash iteration orders", "why_tests_cant": "There are infinitely many grammars and infinitely many strings leading to each state; the tests look at the 12 states of one grammar.", "anchors": ["src/lr0.rs: compute_lr0_automaton, compute_lr0_closure, compute_lr0_goto, LR0AutomatonBuilder"]}
{"id": "C71", "title": "The SLR table (lr0.rs) decides an SLR(1) grammar's language", "statement": "For an SLR(1) grammar build_slr_table succeeds; if it panics, then with a conflict message and the grammar is not SLR(1). An SLR(1) grammar with one entry point is LR(1), so the generator in use builds a parser for it too (short of size limits). Whatever table is built: if the test parser `simulate` with this table accepts, the input is a sentence of non-terminal 0 and each token and the end of the input have been read once; it never panics other than for lack of an action; wherever it stops, the tokens taken before the lookahead begin a sentential form. For an SLR(1) grammar whose FIRST table is complete it accepts exactly the sentences. If every non-terminal derives some string and the grammar is LR(1) (in particular if it is SLR(1)), it ends on every finite input, even with a table in which a conflict was resolved silently; so for SLR(1) grammars it decides the language. Whether a table is built and how every run ends do not depend on hash iteration orders. For a grammar that is not SLR(1) a table can be built all the same (a shift silently replaces a reduction) which refuses sentences, and there are grammars the LR(1) generator accepts and build_slr_table refuses. (The module lr0.rs is in the repository but switched off in lib.rs; the property concerns its code, read over today's Grammar type.)", "quantifier": "all well-formed grammars (as lower produces them) whose non-terminal 0 is an entry point, all token sequences (also infinite), all hash iteration orders", "why_tests_cant": "The unit test runs one three-token input through one grammar's table; acceptance must be right for infinitely many inputs of every grammar.", "anchors": ["src/lr0.rs: build_slr_table", "src/follow.rs: generate_follow_table", "src/lr_common.rs: LRTableBuilder, simulate"]}
{"id": "C72", "title": "Hidden left recursion and cycles are always conflicts", "statement": "Suppose non-terminal names are distinct and every non-terminal derives some string. If from a `pub` non-terminal S one can reach a non-terminal x that is left-recursive behind symbols deriving the empty string (x =>* mu x nu, mu not empty, mu =>* empty) or that derives itself (x =>+ x), then two different parser moves are both right for S after the same symbols and before the same lookahead, so S is not LR(1) by Knuth's definition. Hence, if the macro accepts such a grammar and its FIRST sets are complete, it has silently dropped a reduction that is right, in favour of a shift or of accepting; such grammars, also accepted ones, exist.", "quantifier": "all grammars the macro can lower, all pub non-terminals, all derivations", "why_tests_cant": "test_grammars.rs checks one grammar with hidden left recursion; the claim is about every grammar, and recursion may pass through derivations of any length.", "anchors": ["src/lr1.rs: build_lr1_table", "src/lr_common.rs: LRTableBuilder", "src/test_grammars.rs: hidden_left_recursion"]}
{"id": "C73", "title": "The stack stays small exactly when all recursion is left recursion", "statement": "Say that x recurses inside if x =>* mu x nu with mu not empty. In every program without repeated names, if no non-terminal reachable from a pub non-terminal recurses inside (all recursion is left recursion), the two stacks of its parser together never have more than 2MN+1 entries, where M is the length of the longest production (at least 1) and N the number of definitions, on any input, also endless ones, whatever conflicts were resolved silently and whatever FIRST sets were computed. Conversely, if the program is regular (LR(1), FIRST sets sufficient), every non-terminal derives some string, every token kind has a token and actions do not panic, then a reachable non-terminal that recurses inside (right recursion, nesting) makes the stacks grow beyond any bound on suitable sentences.", "quantifier": "all programs, entry points, token streams (finite or endless) and moments of the run; conversely all bounds K", "why_tests_cant": "no finite set of inputs shows that memory stays bounded on all inputs, nor which grammars have this property", "anchors": ["src/lr_codegen.rs: parse_generic (state_stack, value_stack)", "src/lr1.rs: generate_lr1_automaton", "src/lr1.rs: compute_lr1_closure"]}
{"id": "C74", "title": "Between two calls of next() there is a bounded amount of work exactly when there is no right recursion", "statement": "Say that x recurses at its right end if x =>* mu x nu with mu not empty and nu =>* empty. In every program in which no computed FIRST set is empty, the number of iterations of parse (each a shift or one semantic action) between two calls of next() is at most a constant times the number of entries on the stacks. If moreover no name is defined twice and no non-terminal reachable from a pub non-terminal recurses at its right end, it is at most a constant, on any input, also endless ones, and however high the stack is; the same holds for LR(1) grammars in which every non-terminal derives some string, whatever FIRST sets were computed. Conversely, if the program is regular (LR(1), FIRST sets sufficient), every non-terminal derives some string, every token kind has a token and actions do not panic, then a reachable non-terminal that recurses at its right end makes the number of actions run between two calls of next() exceed any bound on suitable sentences.", "quantifier": "all programs, entry points, token streams (finite or endless) and pairs of moments of a run without a call of next() between them; conversely all bounds K", "why_tests_cant": "no finite set of inputs shows that the delay stays bounded on all inputs, nor which grammars have this property", "anchors": ["src/lr_codegen.rs: parse_generic (loop, input.next())", "src/lr1.rs: generate_lr1_automaton", "src/lr1.rs: build_lr1_table"]}
{"id": "C75", "title": "The parser is parametric in the values, tokens, errors and states it handles", "statement": "Let two programs have the same rules, with terminals of the same names, and otherwise anything else (token types and patterns, types, binders, actions), and let there be relations between the values of each non-terminal, the values captured from each terminal, the lexer errors and the states the actions work on, such that the actions take related values and states to related ones (and panic together). Then on item-wise related token streams from related states, one parse function returns iff the other does, after the same number of calls of next(), and both return related values, or related lexer errors, or the same syntax error, or panic alike, and leave related states. Consequences: a condition on values, tokens and states which every action preserves holds of the result whenever it holds of the tokens read; tokens of one kind with equal captured values are interchangeable, even if they otherwise differ (e.g. in ignored positions); converting lexer errors before parsing is converting them after; and evaluating during parsing is the same as parsing to a tree and evaluating it then.", "quantifier": "all pairs of accepted programs with the same rules, all relations on values, errors and states, all related token streams (finite or endless) and entry points", "why_tests_cant": "quantifies over all relations between values and all pairs of programs; a test runs single programs on single values", "anchors": ["src/lr_codegen.rs: parse_generic", "src/codegen.rs: generate_semantic_action_table, token_terminal_idx_fn, token_value_fn"]}
{"id": "C76", "title": "Grammars written for LL(1), SLR(1) and LALR(1) tools are accepted", "statement": "Let every non-terminal derive some string. If the grammar is LL(1) (once w is read and A is to be expanded, the next terminal determines the production; in particular if no cell of the predictive parsing table made from FIRST and FOLLOW sets has two productions), SLR(1) or LALR(1), for every pub non-terminal as start symbol, then it is LR(1). Hence, if no name is defined twice, the macro never panics with a conflict for it, and unless it is too large it is accepted; the generated parser never misreads a sentence (it returns the value of its derivation tree, or panics like the actions of the tree, or refuses it), and if nullable non-terminals are harmless (C18), parse returns Ok exactly on the sentences. The last condition is needed: a sentence of an LL(1) grammar, for which a recursive descent parser works, is refused.", "quantifier": "all grammars in these classes, all hash orders, entry points, sentences and actions", "why_tests_cant": "ranges over all grammars of three infinite classes and all their sentences", "anchors": ["src/lr1.rs: generate_lr1_automaton, build_lr1_table", "src/first.rs: generate_first_table", "src/lr_common.rs: LRTableBuilder::add_reduce", "src/lib.rs: parser"]}
{"id": "C77", "title": "Parsing is compositional: a part covered by a pub non-terminal parses by itself to the same value and can be replaced by an equivalent one", "statement": "In a regular program (LR(1), FIRST sets large enough, C04), let B.parse return Ok(v) for an input, and let A be a non-terminal of its derivation that covers a part of the input. Then replacing the part by any other sentence of A again gives a sentence of B, whose derivation is the old one with that subtree replaced, and B.parse returns Ok for it or panics in an action. If A is pub too, then A.parse called with just the part, on the state left by the actions to its left, returns Ok with the value the part has in B's derivation and leaves the state from which B's actions go on; replacing the part by any other for which A.parse returns the same value and leaves the same state does not change what B.parse returns and does; and if A.parse panics in an action on another sentence of A, so does B.parse on the input with that sentence in place of the part.", "quantifier": "all regular programs, pairs of entry points, inputs, occurrences of non-terminals in derivation trees, replacements, actions with side effects", "why_tests_cant": "relates runs of different parsers on infinitely many inputs, at every occurrence of every non-terminal", "anchors": ["src/lr_codegen.rs: parse_generic, generate_parser_structs", "src/lower.rs: lower"]}
{"id": "C78", "title": "The debugging dumps of grammar, FIRST sets, automaton and table never panic and tell everything", "statement": "For every grammar the macro lowers, printing the grammar, its FIRST table, its LR(1) automaton and its parse table with their Display implementations does not panic, whatever the iteration order of the hash maps. The printed text determines what was printed: two grammars with the same text have the same names, entry points and right-hand sides; two FIRST tables of a grammar with the same text have the same sets; two automata with the same text have the same states with the same items; and two tables with the same text have the same states and actions and, if no two non-terminals have the same name, the same gotos (transitions). Names of non-terminals are distinct if the names of the definitions and those of the pub ones with a 1 appended are; with pub E and a user-defined E1 the dump is ambiguous.", "quantifier": "all grammars, all FIRST tables, automata and tables over them, all iteration orders of hash maps", "why_tests_cant": "injectivity relates all pairs of values; terminals may contain any characters, among them those used as separators", "anchors": ["src/grammar.rs: Display for Grammar, ProductionDisplay, SymbolKindDisplay", "src/first.rs: FirstTableDisplay, FirstSetDisplay", "src/lr1.rs: LR1ItemDisplay, LR1StateDisplay, LR1AutomatonDisplay", "src/lr_common.rs: LRTableDisplay, LRActionDisplay"]}
{"id": "C79", "title": "What parse reports depends on the language only, not on how the grammar is written", "statement": "For a regular program (no two definitions with one name, LR(1), FIRST sets complete where used) in which every non-terminal derives a sentence and no action panics, parse returns Ok, LexerError or ParserError with the found and expected texts, after the number of next() calls, that the language of the entry point and the declared terminals determine, and nothing else: at most one such report exists for an input and parse returns it. So two such programs with the same language and terminals, even with different token types, actions and types, report the same about every input after the same number of next() calls. Reordering or repeating rules, inlining a non-terminal and turning the left recursion of a list into right recursion do not change the language.", "quantifier": "all pairs of programs, all entry points, all inputs (finite, infinite, with lexer errors), all user states", "why_tests_cant": "equates the behaviour of two programs on all inputs; the language has infinitely many sentences", "anchors": ["src/lr_codegen.rs: generate_lr1_parser (parse_generic)", "src/lr1.rs: build_lr1_table", "src/first.rs: generate_first_table"]}
{"id": "C80", "title": "Extending a grammar is conservative", "statement": "If productions, definitions or tokens are added to a program (old productions keep their actions, old tokens their captured values) and the new version is regular, then every input the old version accepted is accepted by the new one with the same value, the same effects and the same number of next() calls (whether or not the old one was regular). If also every non-terminal derives a sentence (in both) and no action panics: the new version never stops earlier; a lexer error is still reported, after the same number of next() calls; and a syntax error of the new version was a syntax error of the old one, at the same place or earlier, and at the same place with the same found and with every expected terminal of the old version among those of the new one. If the new version is accepted by the macro without being regular (a shift silently replaced a reduce), adding one production can make an input that was accepted a syntax error.", "quantifier": "all pairs of programs of which one extends the other, all entry points, all inputs, all user states", "why_tests_cant": "regression tests cover finitely many old inputs; the claim is about all of them and all extensions", "anchors": ["src/lr1.rs: build_lr1_table", "src/lr_common.rs: LRTableBuilder::add_shift, add_reduce", "src/lr_codegen.rs: generate_lr1_parser (parse_generic)", "src/lower.rs: lower"]}
{"id": "C81", "title": "Left recursion associates to the left, right recursion to the right", "statement": "If the rules of A are A = { A seps T => f, T => g } with actions without effects, the value of every phrase of A is f(..f(f(g(x0),x1),x2)..,xn), where x0..xn are the values of the phrases of T of which it consists, evaluated once each from left to right; and every sequence of phrases of T separated by seps is a phrase of A. With A = { T seps A => f, T => g } it is f(x0,f(x1,..g(xn))). With A = { A T => f, => z } (the way to write repetition, since * is not supported) it is f(..f(f(z,x0),x1)..,xn), for any number of phrases including none. In a regular program parse of the entry point A returns Ok(v) exactly for such sequences and such v. As T may itself be such a non-terminal, this gives operators their precedence.", "quantifier": "all programs with a non-terminal of one of these shapes, all lengths of lists, all inputs, all user states", "why_tests_cant": "lists have every length, and phrases of T any shape", "anchors": ["src/lr_codegen.rs: generate_lr1_parser (parse_generic)", "src/codegen.rs: generate_semantic_action_table", "src/lower.rs: lower", "src/lr1.rs: build_lr1_table"]}
{"id": "C82", "title": "What can be learnt from a syntax error", "statement": "For a regular program in which every non-terminal derives a sentence: in a ParserError at a token, expected is the list, without repetitions, of distinct declared terminals, found is not among them, and the list is empty exactly if the tokens read before it are a complete sentence that no longer sentence continues (only the end of input could have come, which expected does not mention). In a ParserError at the end of the input, found is end-of-input and expected is not empty. If no terminal is empty or contains a comma, the text of expected tells the list.", "quantifier": "all regular programs, all entry points, all inputs, all user states", "why_tests_cant": "ranges over all wrong inputs of all grammars", "anchors": ["src/codegen.rs: generate_expected_state_tokens, generate_token_to_text", "src/lr_codegen.rs: generate_lr1_parser (parse_generic)"]}
{"id": "C83", "title": "The contract of parser!", "statement": "Let the tokens of an invocation follow the documented syntax, with one enum, at most one `type State`, distinct non-terminal names that are plain identifiers, distinct terminals, only `=>` actions, only declared symbols without repetition operators, no binder called value_stack, token patterns without one-element tuples that cover all tokens, a grammar that is LR(1) for every pub definition, in which no rule runs into the defect of FIRST (finding 1; grammars without empty rules never do), in which every definition derives a sentence, and actions that do not panic. Then, for every iteration order of hash containers, parser! either panics because an index does not fit into 16 or 32 bits, or it expands to a module whose parse function of every pub definition, executed as text: runs only code that compiles; returns, on every token stream that ends or has a lexer error, exactly one result, in a deterministic way; returns Ok exactly on the sentences of the definition, with the value and the effects of the derivation; and otherwise reports the first lexer error or syntax error, with the expected terminals, after reading no token more than needed. And without any condition on the grammar or the actions, whatever parser! accepts: everything executed compiles, there is at most one result, Ok is only returned on a sentence and with the value and effects of a derivation of it, a lexer error is the one that was read, a syntax error names the token that is there, and the only panics are those of actions.", "quantifier": "all token sequences of invocations, all iteration orders, all pub definitions, all token streams, all user states", "why_tests_cant": "ranges over all grammars and all inputs", "anchors": ["src/lib.rs: parser", "src/ast.rs: Parser", "src/lower.rs: lower", "src/lr_codegen.rs: generate_lr1_parser", "src/codegen.rs"]}
{"id": "C84", "title": "Layered expression grammars have the intended precedence and associativity", "statement": "Let binary operators be written in the usual way, one non-terminal per level of precedence (`Sum = { Sum \"+\" Prod => .., Sum \"-\" Prod => .., Prod }`, `Pow = { Atom \"^\" Pow => .., Atom }`), each level defined in terms of the next tighter one, the tightest in terms of some non-terminal for operands, every operator on one level, left recursive for left-associative and right recursive for right-associative levels. Then whatever parse returns with Ok is the value that precedence climbing gives for the sequence of operands and operators: looser operators are applied after tighter ones, operators of one level from the left or from the right as declared; operands are evaluated from left to right, each once. For regular programs the converse holds too: every sequence of operands with operators between them is accepted, with that value.", "quantifier": "all accepted programs with such non-terminals (any number of levels and operators), all token streams, all user states", "why_tests_cant": "ranges over all grammars of this shape and all expressions", "anchors": ["src/lib.rs: parser", "src/lr1.rs", "src/lr_codegen.rs: parse_generic", "src/codegen.rs: generate_semantic_action_fns"]}
{"id": "C85", "title": "Layered expression grammars are always accepted and completely parsed", "statement": "A grammar of expressions written in the usual layered way, with any number of levels, any operators, left- or right-associative levels, operands that are terminals, prefix operators applied to an operand (which may be the same tokens as operators between operands) or parenthesised expressions of the loosest level, each rule written once, with distinct names and terminals, and any of the non-terminals pub, is LR(1); no rule runs into the defect of FIRST, and every non-terminal derives a sentence. So parser! accepts it (unless it has so many states or terminals that an index overflows), and everything proved of regular programs holds. If the actions apply the operators, parse of the loosest level returns Ok(v) exactly for operands with operators between them, and v is the value that precedence and associativity give.", "quantifier": "all such grammars (any number of levels, operators, operands; rules and definitions in any order), all token streams, all user states", "why_tests_cant": "ranges over all grammars of the family and all inputs", "anchors": ["src/lib.rs: parser", "src/first.rs", "src/lr1.rs: generate_lr1_automaton, build_lr1_table", "src/lr_common.rs: LRTableBuilder", "src/lr_codegen.rs: parse_generic"]}
{"id": "C86", "title": "Calculators compute the right value", "statement": "Take a layered grammar of expressions (C85) whose actions compute: an operand token its value, a prefix operator a function of its operand, parentheses the value inside, a binary operator a function of both sides. Then parse of the loosest level returns Ok(v) exactly if the input is an expression as one writes it - operands with binary operators between them, an operand being a token, a prefix operator before an operand, or an expression in parentheses - and v is its value when prefix operators bind tightest and binary operators group by precedence and associativity. The user's state is left as it was, and an input can be read as an expression in one way only. If no action panics and every terminal has a token, what is reported of any other input is determined by the expressions alone: the first lexer error if what precedes it can be continued to an expression, otherwise a syntax error at the first token after which it cannot, or at the end, naming the terminals that could have come.", "quantifier": "all such grammars (any number of levels, binary and prefix operators, operands; rules in any order), all value functions, all token streams, all user states", "why_tests_cant": "ranges over all grammars of the family, all nestings and all inputs", "anchors": ["src/lib.rs: parser", "src/codegen.rs:generate_semantic_action_table", "src/lr1.rs: generate_lr1_automaton, build_lr1_table", "src/lr_codegen.rs: parse_generic"]}
