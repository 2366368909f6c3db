import Verif.Conformance.Source

/-! # The integration tests of the project (`tests/tests.rs`), replayed

Every `parser!` call of `tests/tests.rs` is read from its text by the model of `ast.rs`, compiled by
the model of the generator, and the emitted text is executed on the tokens of the test; the expected
values are those the test asserts.  These are tests of the model against expectations written down by
the authors of the code, not properties. -/

namespace Parsegen.Conformance

/-- A token without fields. -/
def tk (s : String) : RVal := .ctor ("Token::" ++ s) []

/-- A token with one field. -/
def tk1 (s v : String) : RVal := .ctor ("Token::" ++ s) [.lit v]

/-- Arithmetic. -/
def add : U → U → U
  | .num a, .num b => .num (a + b)
  | .str a, .str b => .str (a ++ b)
  | _, _ => .con "type error"

def mul : U → U → U
  | .num a, .num b => .num (a * b)
  | _, _ => .con "type error"

set_option maxRecDepth 100000

/-- tests.rs:4-48: the text of the `parser!` call of `balanced_parens`. -/
def balanced_parens_src : List Char := chars! r#"
        enum Token {
            "(" => Token::LParen,
            ")" => Token::RParen,
        }

        pub Entry: usize = {
            <test:Test> => test,
        };

        Test: usize = {
            "(" <t:Test> ")" => t + 1,
            => 0,
        };
"#

/-- tests.rs:4-48 `balanced_parens` -/
theorem balanced_parens : runs balanced_parens_src
    [("t + 1", fun e => add (e "t") (.num 1)), ("0", fun _ => .num 0)]
    [("Entry", []), ("Entry", [tk "LParen", tk "RParen"]),
      ("Entry", [tk "LParen", tk "LParen", tk "RParen", tk "RParen"])] =
    some [some (.ok (.num 0)), some (.ok (.num 1)), some (.ok (.num 2))] := by decide +kernel

/-- tests.rs:50-83: the text of the `parser!` call of `token_lifetimes_1`. -/
def token_lifetimes_1_src : List Char := chars! r#"
            enum Token<'input> {
                "id" => Token::Id(<&'input str>),
            }

            pub Test: &'input str = {
                <s:"id"> => {
                    s
                },
            };
"#

/-- tests.rs:50-83 `token_lifetimes_1` -/
theorem token_lifetimes_1 : runs token_lifetimes_1_src
    [("{ s }", fun e => e "s")]
    [("Test", [tk1 "Id" "abc"])] =
    some [some (.ok (.str "abc"))] := by decide +kernel

/-- tests.rs:85-101: the text of the `parser!` call of `token_lifetimes_2`. -/
def token_lifetimes_2_src : List Char := chars! r#"
            enum Token<'input> {
                "id" => Token::Id(<&'input str>),
            }

            pub Test: String = {
                <i1:"id"> <i2:"id"> <i3:"id"> => {
                    i1.to_owned() + i2 + i3
                },
            };
"#

/-- tests.rs:85-101 `token_lifetimes_2` -/
theorem token_lifetimes_2 : runs token_lifetimes_2_src
    [("{ i1 . to_owned ( ) + i2 + i3 }", fun e => add (add (e "i1") (e "i2")) (e "i3"))]
    [("Test", [tk1 "Id" "a", tk1 "Id" "b", tk1 "Id" "c"])] =
    some [some (.ok (.str "abc"))] := by decide +kernel

/-- tests.rs:106-128: the text of the `parser!` call of `bug_1`. -/
def bug_1_src : List Char := chars! r#"
        enum Token {
            "a" => Token::A,
        }

        pub Test1: Token = {
            => todo!(),
        };

        pub Test2: Token = {
            => todo!(),
        };
"#

/-- tests.rs:106-128 `bug_1`: the macro accepts. -/
theorem bug_1 : (compile .insertion bug_1_src).isSome = true := by decide +kernel

/-- tests.rs:132-154: the text of the `parser!` call of `bug_2`. -/
def bug_2_src : List Char := chars! r#"
        enum Token {
            "a" => Token::A,
        }

        pub Test1: Token = {
            Test2 Test1 => todo!(),
        };

        pub Test2: Token = {
            => todo!(),
        };
"#

/-- tests.rs:132-154 `bug_2`: the macro accepts. -/
theorem bug_2 : (compile .insertion bug_2_src).isSome = true := by decide +kernel

/-- tests.rs:156-227: the text of the `parser!` call of `test_grammar_5`. -/
def test_grammar_5_src : List Char := chars! r#"
        enum Token {
            "(" => Token::LParen,
            ")" => Token::RParen,
            "+" => Token::Plus,
            "*" => Token::Star,
            "int" => Token::Int(<u64>),
        }

        pub E: () = {
            T E1 => (),
        };

        E1: () = {
            "+" T E1 => (),
            => (),
        };

        T: () = {
            F T1 => (),
        };

        T1: () = {
            "*" F T1 => (),
            => (),
        };

        F: () = {
            "(" E ")" => (),
            "int" => (),
        };
"#

/-- tests.rs:156-227 `test_grammar_5` -/
theorem test_grammar_5 : runs test_grammar_5_src
    [("( )", fun _ => .con "()")]
    [("E", [tk1 "Int" "1"]),
      ("E", [tk1 "Int" "1", tk "Plus", tk1 "Int" "2"]),
      ("E", [tk1 "Int" "1", tk "Plus", tk1 "Int" "2", tk "Star", tk1 "Int" "3"]),
      ("E", [tk1 "Int" "4", tk "Star", tk1 "Int" "1", tk "Star", tk1 "Int" "5", tk "Plus", tk1 "Int" "2", tk "Star", tk1 "Int" "3"])] =
    some [some (.ok (.con "()")), some (.ok (.con "()")), some (.ok (.con "()")), some (.ok (.con "()"))] := by decide +kernel

/-- tests.rs:229-300: the text of the `parser!` call of `test_grammar_6`. -/
def test_grammar_6_src : List Char := chars! r#"
        enum Token {
            "(" => Token::LParen,
            ")" => Token::RParen,
            "+" => Token::Plus,
            "*" => Token::Star,
            "int" => Token::Int(<u64>),
        }

        pub E: u64 = {
            <e:E1> => e,
        };

        E1: u64 = {
            <e:E1> "+" <t:T> => e + t,
            <t:T> => t,
        };

        T: u64 = {
            <t:T> "*" <f:F> => t * f,
            <f:F> => f,
        };

        F: u64 = {
            "(" <e:E> ")" => e,
            <i:"int"> => i,
        };
"#

/-- tests.rs:229-300 `test_grammar_6` -/
theorem test_grammar_6 : runs test_grammar_6_src
    [("e + t", fun e => add (e "e") (e "t")), ("t * f", fun e => mul (e "t") (e "f"))]
    [("E", [tk1 "Int" "1"]),
      ("E", [tk1 "Int" "1", tk "Plus", tk1 "Int" "2"]),
      ("E", [tk1 "Int" "1", tk "Plus", tk1 "Int" "2", tk "Star", tk1 "Int" "3"]),
      ("E", [tk1 "Int" "4", tk "Star", tk1 "Int" "1", tk "Star", tk1 "Int" "5", tk "Plus", tk1 "Int" "2", tk "Star", tk1 "Int" "3"])] =
    some [some (.ok (.num 1)), some (.ok (.num 3)), some (.ok (.num 7)), some (.ok (.num 26))] := by decide +kernel

/-- tests.rs:302-350: the text of the `parser!` call of `test_grammar_7`. -/
def test_grammar_7_src : List Char := chars! r#"
        enum Token {
            "*" => Token::Star,
            "=" => Token::Eq,
            "n" => Token::Id,
        }

        pub S0: () = {
            S => (),
        };

        S: () = {
            L "=" R => (),
            R => (),
        };

        L: () = {
            "*" R => (),
            "n" => (),
        };

        R: () = {
            L => (),
        };
"#

/-- tests.rs:302-350 `test_grammar_7` -/
theorem test_grammar_7 : runs test_grammar_7_src
    [("( )", fun _ => .con "()")]
    [("S0", [tk "Id", tk "Eq", tk "Id"]), ("S0", [tk "Id", tk "Eq", tk "Star", tk "Id"]),
      ("S0", [tk "Star", tk "Id", tk "Eq", tk "Id"])] =
    some [some (.ok (.con "()")), some (.ok (.con "()")), some (.ok (.con "()"))] := by decide +kernel

/-- tests.rs:352-472: the text of the `parser!` call of `expr_example`. -/
def expr_example_src : List Char := chars! r#"
        enum Token {
            "n" => Token::Id,
            "-" => Token::Minus,
        }

        pub BinOpExpr: Expr = {
            <expr:UnOpExpr> =>
                expr,

            <expr1:BinOpExpr> "-" <expr2:UnOpExpr> =>
                Expr::Sub(Box::new(expr1), Box::new(expr2)),
        };

        pub UnOpExpr: Expr = {
            <expr:AppExpr> =>
                expr,

            "-" <expr:AppExpr> =>
                Expr::Neg(Box::new(expr)),
        };

        pub AppExpr: Expr = {
            <expr:SimpleExpr> =>
                expr,

            <expr1:SimpleExpr> <expr2:SimpleExpr> =>
                Expr::App(Box::new(expr1), Box::new(expr2)),
        };

        pub SimpleExpr: Expr = {
            "n" =>
                Expr::Id,
        };
"#

/-- tests.rs:352-472 `expr_example` -/
theorem expr_example : runs expr_example_src
    [("Expr : : Sub ( Box : : new ( expr1 ) , Box : : new ( expr2 ) )",
        fun e => .app (.app (.con "Sub") (e "expr1")) (e "expr2")),
      ("Expr : : Neg ( Box : : new ( expr ) )", fun e => .app (.con "Neg") (e "expr")),
      ("Expr : : App ( Box : : new ( expr1 ) , Box : : new ( expr2 ) )",
        fun e => .app (.app (.con "App") (e "expr1")) (e "expr2")),
      ("Expr : : Id", fun _ => .con "Id")]
    [("BinOpExpr", [tk "Id", tk "Minus", tk "Id"]), ("BinOpExpr", [tk "Id", tk "Id"]), ("BinOpExpr", [tk "Minus", tk "Id", tk "Id"]),
      ("BinOpExpr", [tk "Minus", tk "Id", tk "Minus", tk "Id"]),
      ("BinOpExpr", [tk "Id", tk "Minus", tk "Minus", tk "Id"]),
      ("UnOpExpr", [tk "Minus", tk "Id"]), ("AppExpr", [tk "Id", tk "Id"]), ("SimpleExpr", [tk "Id"])] =
    some [some (.ok (.app (.app (.con "Sub") (.con "Id")) (.con "Id"))),
      some (.ok (.app (.app (.con "App") (.con "Id")) (.con "Id"))),
      some (.ok (.app (.con "Neg") (.app (.app (.con "App") (.con "Id")) (.con "Id")))),
      some (.ok (.app (.app (.con "Sub") (.app (.con "Neg") (.con "Id"))) (.con "Id"))),
      some (.ok (.app (.app (.con "Sub") (.con "Id")) (.app (.con "Neg") (.con "Id")))),
      some (.ok (.app (.con "Neg") (.con "Id"))),
      some (.ok (.app (.app (.con "App") (.con "Id")) (.con "Id"))),
      some (.ok (.con "Id"))] := by decide +kernel

/-- tests.rs:474-502: the text of the `parser!` call of `token_values`. -/
def token_values_src : List Char := chars! r#"
        enum Token {
            "id" => Token::Id(<Id>),
        }

        pub Entry: Expr = {
            <id:"id"> => Expr::Id(id),
        };
"#

/-- tests.rs:474-502 `token_values` -/
theorem token_values : runs token_values_src
    [("Expr : : Id ( id )", fun e => .app (.con "Expr::Id") (e "id"))]
    [("Entry", [.ctor "Token::Id" [.ctor "Id" []]])] =
    some [some (.ok (.app (.con "Expr::Id") (.con "Id")))] := by decide +kernel

/-- tests.rs:504-563: the text of the `parser!` call of `lookahead_example_1`. -/
def lookahead_example_1_src : List Char := chars! r#"
        enum Token {
            "e" => Token::E,
            "c" => Token::C,
            "d" => Token::D,
        }

        pub Entry: Expr = {
            <x:X> "c" => Expr::C(x),
            <y:Y> "d" => Expr::D(y),
        };

        X: usize = {
            "e" <x:X> => x + 1,
            "e" => 1,
        };

        Y: usize = {
            "e" <y:Y> => y + 1,
            "e" => 1,
        };
"#

/-- tests.rs:504-563 `lookahead_example_1` -/
theorem lookahead_example_1 : runs lookahead_example_1_src
    [("x + 1", fun e => add (e "x") (.num 1)), ("y + 1", fun e => add (e "y") (.num 1)), ("1", fun _ => .num 1),
      ("Expr : : C ( x )", fun e => .app (.con "C") (e "x")),
      ("Expr : : D ( y )", fun e => .app (.con "D") (e "y"))]
    [("Entry", [tk "E", tk "E", tk "C"]), ("Entry", [tk "E", tk "E", tk "D"])] =
    some [some (.ok (.app (.con "C") (.num 2))), some (.ok (.app (.con "D") (.num 2)))] := by decide +kernel

/-- tests.rs:565-645: the text of the `parser!` call of `lookahead_example_2`. -/
def lookahead_example_2_src : List Char := chars! r#"
        enum Token {
            "a" => Token::A,
            "b" => Token::B,
            "c" => Token::C,
            "d" => Token::D,
            "e" => Token::E,
        }

        pub Entry: Expr = {
            "a" <x:X> "d" => Expr::E1(x),
            "a" <y:Y> "c" => Expr::E2(y),
            "b" <x:X> "c" => Expr::E3(x),
            "b" <y:Y> "d" => Expr::E4(y),
        };

        X: usize = {
            "e" <x:X> => x + 1,
            "e" => 1,
        };

        Y: usize = {
            "e" <y:Y> => y + 1,
            "e" => 1,
        };
"#

/-- tests.rs:565-645 `lookahead_example_2` -/
theorem lookahead_example_2 : runs lookahead_example_2_src
    [("x + 1", fun e => add (e "x") (.num 1)), ("y + 1", fun e => add (e "y") (.num 1)), ("1", fun _ => .num 1),
      ("Expr : : E1 ( x )", fun e => .app (.con "E1") (e "x")),
      ("Expr : : E2 ( y )", fun e => .app (.con "E2") (e "y")),
      ("Expr : : E3 ( x )", fun e => .app (.con "E3") (e "x")),
      ("Expr : : E4 ( y )", fun e => .app (.con "E4") (e "y"))]
    [("Entry", [tk "A", tk "E", tk "E", tk "D"]), ("Entry", [tk "A", tk "E", tk "E", tk "C"]),
      ("Entry", [tk "B", tk "E", tk "E", tk "C"]), ("Entry", [tk "B", tk "E", tk "E", tk "D"])] =
    some [some (.ok (.app (.con "E1") (.num 2))), some (.ok (.app (.con "E2") (.num 2))), some (.ok (.app (.con "E3") (.num 2))), some (.ok (.app (.con "E4") (.num 2)))] := by decide +kernel

/-- tests.rs:670-693: the text of the `parser!` call of `token_ordering_1`. -/
def token_ordering_1_src : List Char := chars! r#"
            enum Token<'input> {
                "id_a" => Token::Id("a"),
                "id" => Token::Id(<&'input str>),
            }

            pub Exprs : Vec<Expr> = {
                <e:Expr0> <mut es:Exprs> => {
                    es.insert(0, e);
                    es
                },

                => vec![],
            };

            Expr0 : Expr = {
                "id" => Expr::Id,
                "id_a" => Expr::IdA,
            };
"#

/-- tests.rs:670-693 `token_ordering_1` -/
theorem token_ordering_1 : runs token_ordering_1_src
    [("{ es . insert ( 0 , e ) ; es }", fun e => .app (.app (.con "cons") (e "e")) (e "es")),
      ("vec ! [ ]", fun _ => .con "nil"), ("Expr : : Id", fun _ => .con "Id"),
      ("Expr : : IdA", fun _ => .con "IdA")]
    [("Exprs", [tk1 "Id" "\"a\"", tk1 "Id" "\"b\""])] =
    some [some (.ok (.app (.app (.con "cons") (.con "IdA"))
      (.app (.app (.con "cons") (.con "Id")) (.con "nil"))))] := by decide +kernel

/-- tests.rs:695-719: the text of the `parser!` call of `token_ordering_2`. -/
def token_ordering_2_src : List Char := chars! r#"
            enum Token<'input> {
                "id" => Token::Id(<&'input str>),
                "id_a" => Token::Id("a"), // never matched
            }

            pub Exprs : Vec<Expr> = {
                <e:Expr0> <mut es:Exprs> => {
                    es.insert(0, e);
                    es
                },

                => vec![],
            };

            Expr0 : Expr = {
                "id" => Expr::Id,
                "id_a" => Expr::IdA,
            };
"#

/-- tests.rs:695-719 `token_ordering_2` -/
theorem token_ordering_2 : runs token_ordering_2_src
    [("{ es . insert ( 0 , e ) ; es }", fun e => .app (.app (.con "cons") (e "e")) (e "es")),
      ("vec ! [ ]", fun _ => .con "nil"), ("Expr : : Id", fun _ => .con "Id"),
      ("Expr : : IdA", fun _ => .con "IdA")]
    [("Exprs", [tk1 "Id" "\"a\"", tk1 "Id" "\"b\""])] =
    some [some (.ok (.app (.app (.con "cons") (.con "Id"))
      (.app (.app (.con "cons") (.con "Id")) (.con "nil"))))] := by decide +kernel

end Parsegen.Conformance
