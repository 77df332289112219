import Verif.Spec.Route

/-! Texts as expressions: what the text behind the last variable of a pattern means when it contains `.`, `\`, `+`, `?`, `(`, `)`, `|`, `[` or `]`. -/
namespace Oapi.Spec

/-- Expressions. -/
inductive Expr where
  | nothing
  | char (c : Nat)
  | anyChar
  | oneOf (rs : List (Nat × Nat))
  | noneOf (rs : List (Nat × Nat))
  | seq (a b : Expr)
  | either (a b : Expr)
  | many (a : Expr)
  | maybe (a : Expr)

/-- The texts an expression stands for. -/
inductive StandsFor : Expr → List Nat → Prop where
  | nothing : StandsFor .nothing []
  | char {c} : StandsFor (.char c) [c]
  | anyChar {c} : c ≠ 10 → StandsFor .anyChar [c]
  | oneOf {rs c} : (∃ r ∈ rs, r.1 ≤ c ∧ c ≤ r.2) → StandsFor (.oneOf rs) [c]
  | noneOf {rs c} : (¬ ∃ r ∈ rs, r.1 ≤ c ∧ c ≤ r.2) → StandsFor (.noneOf rs) [c]
  | seq {a b u v} : StandsFor a u → StandsFor b v → StandsFor (.seq a b) (u ++ v)
  | left {a b u} : StandsFor a u → StandsFor (.either a b) u
  | right {a b u} : StandsFor b u → StandsFor (.either a b) u
  | once {a u} : StandsFor a u → StandsFor (.many a) u
  | again {a u v} : StandsFor a u → StandsFor (.many a) v → StandsFor (.many a) (u ++ v)
  | without {a} : StandsFor (.maybe a) []
  | with_ {a u} : StandsFor a u → StandsFor (.maybe a) u

/-- What is read: an item, an item with a repetition, a sequence of them, or alternatives. -/
inductive Level where
  | item | rep | seq | alts

/-- `[`, `\` and `]`, which have no place in a list of characters here. -/
def NoClass (c : Nat) : Prop := c = 91 ∨ c = 92 ∨ c = 93

/-- What stands in brackets: characters and ranges `a-b`; a '-' that is not between two characters stands for itself. -/
inductive Ranges : List Nat → List (Nat × Nat) → Prop where
  | nil : Ranges [] []
  | one {c s rs} : ¬ NoClass c → (∀ d u, s ≠ 45 :: d :: u) → Ranges s rs → Ranges (c :: s) ((c, c) :: rs)
  | range {a b s rs} : ¬ NoClass a → ¬ NoClass b → a ≤ b → Ranges s rs → Ranges (a :: 45 :: b :: s) ((a, b) :: rs)

/-- The letters of `\d`, `\s` and `\w`, and of their opposites, with the characters: digits, white space, letters with digits and '_'. -/
inductive Perl : Nat → Expr → Prop where
  | digit : Perl 100 (.oneOf [(48, 57)])
  | noDigit : Perl 68 (.noneOf [(48, 57)])
  | space : Perl 115 (.oneOf [(9, 10), (12, 13), (32, 32)])
  | noSpace : Perl 83 (.noneOf [(9, 10), (12, 13), (32, 32)])
  | word : Perl 119 (.oneOf [(48, 57), (65, 90), (95, 95), (97, 122)])
  | noWord : Perl 87 (.noneOf [(48, 57), (65, 90), (95, 95), (97, 122)])

/-- `Written l n s e`: at level `l`, the text `s` is read as the expression `e`, with groups nested at most `n` deep. -/
inductive Written : Level → Nat → List Nat → Expr → Prop where
  | char {n c} : ¬ Meta c → Written .item n [c] (.char c)
  | escaped {n c} : Meta c → Written .item n [92, c] (.char c)
  | dot {n} : Written .item n [46] .anyChar
  | perl {n c e} : Perl c e → Written .item n [92, c] e
  | oneOf {n s rs} : s ≠ [] → s.head? ≠ some 94 → Ranges s rs → Written .item n (91 :: s ++ [93]) (.oneOf rs)
  | noneOf {n s rs} : s ≠ [] → Ranges s rs → Written .item n (91 :: 94 :: s ++ [93]) (.noneOf rs)
  | group {n s e} : Written .alts n s e → Written .item (n + 1) (40 :: s ++ [41]) e
  | item {n s e} : Written .item n s e → Written .rep n s e
  | plus {n s e} : Written .item n s e → Written .rep n (s ++ [43]) (.many e)
  | question {n s e} : Written .item n s e → Written .rep n (s ++ [63]) (.maybe e)
  | empty {n} : Written .seq n [] .nothing
  | cons {n s t a b} : Written .rep n s a → Written .seq n t b → Written .seq n (s ++ t) (.seq a b)
  | one {n s e} : Written .seq n s e → Written .alts n s e
  | more {n s t a b} : Written .seq n s a → Written .alts n t b → Written .alts n (s ++ 124 :: t) (.either a b)

/-- `Choices n s es`: the text is the alternatives `es`, separated by '|'. -/
inductive Choices (n : Nat) : List Nat → List Expr → Prop where
  | one {s e} : Written .seq n s e → Choices n s [e]
  | more {s t e es} : Written .seq n s e → Choices n t es → Choices n (s ++ 124 :: t) (e :: es)

/-- Which paths the alternatives at the end of a pattern match, `before` being what is in front of them: with one alternative the whole
path; otherwise what is in front and the beginning of the path belong to the first alternative only, and the end of the path to the last. -/
def Accepts (before : List Tok) (es : List Expr) (q : List Nat) : Prop :=
  match es with
  | [] => False
  | [e] => ∃ u v, q = u ++ v ∧ Describes before u ∧ StandsFor e v
  | e :: es => (∃ u v w, q = u ++ v ++ w ∧ Describes before u ∧ StandsFor e v) ∨
      (∃ m ∈ es.dropLast, ∃ u v w, q = u ++ v ++ w ∧ StandsFor m v) ∨
      (∃ z, es.getLast? = some z ∧ ∃ u v, q = u ++ v ∧ StandsFor z v)

end Oapi.Spec
