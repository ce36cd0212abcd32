import Verif.Props.ToysShow

/-!
# C113: the program of toys/src/main.rs

From the text of the program to what it prints, for all bounds of the loop.
-/

namespace OniComb.Toys.Parse
open OniComb.Calc.Spec (Blank Digits)
open OniComb.Calc (BlankC blank_nil)
open OniComb.Toys.Text

variable (S : Std)

/-- The text before the bounds, main.rs:17-30. -/
def demoBefore : List Char := "
    fn fizz_buzz(n) {
      if ((n % 3 == 0) && (n % 5 == 0)) {
        println(\"FizzBuzz\");
      } else if (n % 3 == 0) {
        println(\"Fizz\");
      } else if (n % 5 == 0) {
        println(\"Buzz\");
      } else {
        println(n);
      }
    }
    fn main() {
      println(\"----\");
      for (i in ".toList

/-- The text behind the bounds, main.rs:30-37. -/
def demoBehind : List Char := ") {
        n = i;
        fizz_buzz(i);
      }
      println(\"----\");
    }
    ".toList

/-- The program with the bounds `t` and `u`; in main.rs they are `1` and `100`. -/
def demo (t u : List Char) : List Char := demoBefore ++ (t ++ (" to ".toList ++ (u ++ demoBehind)))

/-- FizzBuzz. -/
def fizzBuzz (k : Int) : Value :=
  if 3 ∣ k ∧ 5 ∣ k then .string "FizzBuzz" else if 3 ∣ k then .string "Fizz" else if 5 ∣ k then .string "Buzz" else .int k

/-! ### The text -/

private theorem ident_i : Ident "i" := ⟨'i', [], by decide, by unfold Start; decide, by simp⟩
private theorem ident_n : Ident "n" := ⟨'n', [], by decide, by unfold Start; decide, by simp⟩
private theorem ident_fb : Ident "fizz_buzz" :=
  ⟨'f', "izz_buzz".toList, by decide, by unfold Start; decide, by unfold Part Start; decide⟩
private theorem ident_main : Ident "main" :=
  ⟨'m', "ain".toList, by decide, by unfold Start; decide, by unfold Part Start; decide⟩

private theorem prim_i : Prim false (.symbol "i") "i".toList :=
  .var ident_i (.inl ⟨fun r h => (by cases h), by decide⟩)
private theorem prim_n : Prim false (.symbol "n") "n".toList :=
  .var ident_n (.inl ⟨fun r h => (by cases h), by decide⟩)

private theorem ex {e : Expr} {t : List Char} (h : Prim false e t) : Ex false e t := .one (.one (.one (.one h)))

private theorem blank_of {t : List Char} (h : t.all (fun c => c == ' ' || c == '\n') = true) : Blank t := by
  intro c hc
  have := List.all_eq_true.1 h c hc
  simp only [Bool.or_eq_true, beq_iff_eq] at this
  rcases this with h | h
  · exact .inl h
  · exact .inr (.inr (.inr h))

private theorem plain_text (s : String) (h : s.toList.all (fun c => c != '"' && c != '\\') = true) :
    StrText s ('"' :: (s.toList ++ ['"'])) := by
  refine ⟨s.toList.map .raw, ?_, ?_, ?_, ?_⟩
  · intro it hit
    obtain ⟨c, hc, rfl⟩ := List.mem_map.1 hit
    have := List.all_eq_true.1 h c hc
    simp only [Bool.and_eq_true, bne_iff_ne] at this
    exact ⟨this.1, this.2, .inl rfl⟩
  · intro pre run post _ _ _ _
    rfl
  · have : ∀ l : List Char, l = Json.Spec.decode (Json.charKind (F := Unit) fun _ => none)
        ((l.map Json.Spec.Item.raw).map (Json.Spec.Item.unit (Json.charKind (F := Unit) fun _ => none))) := by
      intro l
      induction l with
      | nil => rfl
      | cons c l ih =>
        simp only [List.map_cons, Json.Spec.Item.unit]
        rw [Json.Spec.decode, ← ih]
    exact this _
  · have : ∀ l : List Char, (l.map Json.Spec.Item.raw).flatMap (Json.Spec.Item.text (Json.charKind (F := Unit) fun _ => none)) = l := by
      intro l
      induction l with
      | nil => rfl
      | cons c l ih => rw [List.map_cons, List.flatMap_cons, ih]; rfl
    rw [this]; rfl

/-- `n % d == 0` -/
private def modZero (d : Nat) : Expr :=
  .binary .equalEqual (.binary .mod (.symbol "n") (.integerLiteral d)) (.integerLiteral 0)

private theorem ex_modZero (c : Char) (h : '0' ≤ c ∧ c ≤ '9') :
    Ex false (modZero (c.toNat - 48)) (['n', ' ', '%', ' ', c, ' ', '=', '=', ' ', '0']) := by
  have h1 : Chain (Chain (Prim false) MulOp) ModOp (.binary .mod (.symbol "n") (.integerLiteral (c.toNat - 48 : Nat))) _ :=
    .op (a := [' ']) (b := [' ']) (.one (.one prim_n)) blank_one .mod blank_one (.one (digit_ex c h))
  have h2 : Ex false (modZero (c.toNat - 48)) _ :=
    .op (a := [' ']) (b := [' ']) (.one (.one h1)) blank_one .eq blank_one (.one (.one (.one (digit_ex '0' (by decide)))))
  exact h2

private theorem print_text (s : String) (h : s.toList.all (fun c => c != '"' && c != '\\') = true) :
    Line false false (.println (.stringLiteral s)) ("println(".toList ++ ('"' :: (s.toList ++ ['"']) ++ ");".toList)) :=
  println_line (ex (.str (plain_text s h)))

private theorem one_block {e : Expr} {t a b : List Char} (h : Line false false e t) (ha : Blank a) (hb : Blank b) :
    Line false false (.block [e]) ('{' :: ((a ++ (t ++ b)) ++ ['}'])) :=
  .block (.cons ha h (.nil hb) (.inr (.inl rfl)))

/-- The body of `fizz_buzz`. -/
private def body : Expr :=
  .if (.binary .and (.parenthesized (modZero 3)) (.parenthesized (modZero 5))) (.block [.println (.stringLiteral "FizzBuzz")])
    (some (.if (modZero 3) (.block [.println (.stringLiteral "Fizz")])
      (some (.if (modZero 5) (.block [.println (.stringLiteral "Buzz")]) (some (.block [.println (.symbol "n")]))))))

private def bodyText : List Char := "if ((n % 3 == 0) && (n % 5 == 0)) {
        println(\"FizzBuzz\");
      } else if (n % 3 == 0) {
        println(\"Fizz\");
      } else if (n % 5 == 0) {
        println(\"Buzz\");
      } else {
        println(n);
      }".toList

private theorem body_line : ∃ t, Line false false body t ∧ t = bodyText := by
  have c3 := ex_modZero '3' (by decide)
  have c5 := ex_modZero '5' (by decide)
  have par : ∀ {e t}, Ex false e t → Prim false (.parenthesized e) ('(' :: ([] ++ (t ++ ([] ++ [')'])))) :=
    fun h => .paren (a := []) (b := []) blank_nil h blank_nil
  have cond : Ex false (.binary .and (.parenthesized (modZero 3)) (.parenthesized (modZero 5))) _ :=
    .op (a := [' ']) (b := [' ']) (ex (par c3)) blank_one .and blank_one (.one (.one (.one (par c5))))
  have in8 : Blank ('\n' :: List.replicate 8 ' ') := blank_of (by decide)
  have in6 : Blank ('\n' :: List.replicate 6 ' ') := blank_of (by decide)
  have b1 := one_block (print_text "FizzBuzz" (by decide)) in8 in6
  have b2 := one_block (print_text "Fizz" (by decide)) in8 in6
  have b3 := one_block (print_text "Buzz" (by decide)) in8 in6
  have b4 := one_block (println_line (ex prim_n)) in8 in6
  have mk : ∀ {e s s' t u v}, Ex false e t → Line false false s u → Line false false s' v → Line false false (.if e s (some s'))
      ("if".toList ++ ([' '] ++ '(' :: ([] ++ (t ++ ([] ++ ')' :: ([' '] ++ (u ++ ([' '] ++ ("else".toList ++ ([' '] ++ v)))))))))) :=
    fun h1 h2 h3 => .ifElse blank_one blank_nil h1 blank_nil blank_one h2 (.inr rfl) blank_one blank_one h3
  exact ⟨_, mk cond b1 (mk c3 b2 (mk c5 b3 b4)), by decide +kernel⟩

private theorem before_text : demoBefore = '\n' :: (List.replicate 4 ' ' ++ ("fn".toList ++ ' ' :: ("fizz_buzz".toList ++ '(' ::
    ("n".toList ++ ')' :: ' ' :: '{' :: '\n' :: (List.replicate 6 ' ' ++ (bodyText ++ '\n' :: (List.replicate 4 ' ' ++ '}' :: '\n' ::
    (List.replicate 4 ' ' ++ ("fn".toList ++ ' ' :: ("main".toList ++ '(' :: ')' :: ' ' :: '{' :: '\n' :: (List.replicate 6 ' ' ++
    ("println(".toList ++ '"' :: ("----".toList ++ '"' :: (");".toList ++ '\n' :: (List.replicate 6 ' ' ++ ("for".toList ++ ' ' :: '(' ::
    ("i".toList ++ ' ' :: ("in".toList ++ [' '])))))))))))))))))) := by decide +kernel

private theorem to_text : " to ".toList = ' ' :: ("to".toList ++ [' ']) := by decide +kernel

private theorem behind_text : demoBehind = ')' :: ' ' :: '{' :: '\n' :: (List.replicate 8 ' ' ++ ("n".toList ++ ' ' :: '=' :: ' ' ::
    ("i".toList ++ ';' :: '\n' :: (List.replicate 8 ' ' ++ ("fizz_buzz".toList ++ '(' :: ("i".toList ++ ')' :: ';' :: '\n' ::
    (List.replicate 6 ' ' ++ '}' :: '\n' :: (List.replicate 6 ' ' ++ ("println(".toList ++ '"' :: ("----".toList ++ '"' ::
    (");".toList ++ '\n' :: (List.replicate 4 ' ' ++ '}' :: '\n' :: List.replicate 4 ' ')))))))))))) := by decide +kernel

/-- The program. -/
private def demoExpr (e e' : Expr) : List Expr :=
  [.functionDefinition "fizz_buzz" ["n"] (.block [body]),
   .functionDefinition "main" [] (.block [.println (.stringLiteral "----"),
     forLoop "i" e e' (.block [.assignment "n" (.symbol "i"), .functionCall "fizz_buzz" [.symbol "i"]]),
     .println (.stringLiteral "----")])]

private theorem demo_prog {e e' : Expr} {t u : List Char} (h : Ex false e t) (h' : Ex false e' u) :
    Text.Prog false (demoExpr e e') (demo t u) := by
  obtain ⟨tb, hb, eb⟩ := body_line
  have in8 : Blank ('\n' :: List.replicate 8 ' ') := blank_of (by decide)
  have in6 : Blank ('\n' :: List.replicate 6 ' ') := blank_of (by decide)
  have in4 : Blank ('\n' :: List.replicate 4 ' ') := blank_of (by decide)
  have fb := Def.func (lax := false) (n := "fizz_buzz") (ns := ["n"]) (a := [' ']) (b := []) (c := [' ']) blank_one ident_fb blank_nil
    (.plain (a := []) (b := []) blank_nil (.one (⟨ident_n, rfl⟩ : IsName "n" _)) blank_nil) blank_one
    (.cons in6 hb (.nil in4) (.inr (.inl rfl)))
  have dash := print_text "----" (by decide)
  have asg : Line false false (.assignment "n" (.symbol "i")) _ :=
    .assign (a := [' ']) (b := [' ']) (c := []) ident_n blank_one blank_one (ex prim_i) blank_nil
  have call : Line false false (.functionCall "fizz_buzz" [.symbol "i"]) _ :=
    .expr (a := []) (ex (.call (a := []) ident_fb blank_nil (.plain (a := []) (b := []) blank_nil (.one (ex prim_i)) blank_nil)))
      blank_nil (.inr (by
        rintro ⟨k, hk, b, r, -, h⟩
        have key : ∀ k ∈ ["println", "while", "if", "for"], k.toList.take 2 ≠ ['f', 'i'] ∧ 2 ≤ k.toList.length := by decide
        have h1 := key k hk
        have h2 := congrArg (List.take 2) h
        rw [List.take_append_of_le_length h1.2] at h2
        exact h1.1 h2.symm))
  have loop : Line false false (forLoop "i" e e' (.block [.assignment "n" (.symbol "i"), .functionCall "fizz_buzz" [.symbol "i"]])) _ :=
    .forDo (a := [' ']) (b := []) (c := [' ']) (d := [' ']) (f := [' ']) (g := [' ']) (h := []) (i := [' ']) blank_one blank_nil
      ident_i blank_one (.inr (by simp)) blank_one h blank_one (.inr (by simp)) blank_one h' blank_nil blank_one
      (.block (.cons in8 asg (.cons in8 call (.nil in6) (.inr (.inl rfl))) (.inr (.inl rfl))))
  have mn := Def.func (lax := false) (n := "main") (ns := []) (a := [' ']) (b := []) (u := []) (c := [' ']) blank_one ident_main
    blank_nil (.empty blank_nil) blank_one
    (.cons in6 dash (.cons in6 loop (.cons in6 dash (.nil in4) (.inr (.inl rfl))) (.inr (.inl rfl))) (.inr (.inl rfl)))
  have := Text.Prog.cons in4 fb (.cons in4 mn (.nil in4))
  refine this.text ?_
  unfold demo
  rw [before_text, behind_text, to_text, eb]
  simp only [List.append_assoc, List.cons_append, List.nil_append]

/-! ### The run -/

private theorem runs_modZero {cfg : Cfg} {st : St} {k : Int} {d : Nat} (h : st.env.lookup "n" = some (.int k)) (hk : Fits k)
    (hd : d = 3 ∨ d = 5) : Runs cfg (modZero d) st (.bool (decide ((d : Int) ∣ k))) st := by
  have h1 : inI64 (k.tdiv d) = true := by
    have h2 := Int.natAbs_tdiv k d
    have h3 : k.natAbs.div (d : Int).natAbs = k.natAbs / d := rfl
    rw [h3] at h2
    unfold Fits at hk
    refine Bool.and_eq_true_iff.2 ⟨decide_eq_true ?_, decide_eq_true ?_⟩ <;>
      rcases hd with rfl | rfl <;> simp only [i64Min, i64Max] <;> omega
  refine runs_binary.2 ⟨.int (k.tmod d), st, .int 0, runs_binary.2 ⟨.int k, st, .int d, runs_symbol.2 ⟨rfl, h⟩, runs_integer, ?_⟩,
    runs_integer, ?_⟩
  · have h2 : d ≠ 0 := by omega
    simp [applyOp, ints, Value.asInt, modI64, h1, h2]
  · simp only [applyOp, ints, Value.asInt, Option.some.injEq, Value.bool.injEq, decide_eq_decide]
    exact Int.dvd_iff_tmod_eq_zero.symm

/-- One call of `fizz_buzz`, the variable `n` being `k`. -/
private theorem runs_body {cfg : Cfg} {st : St} {k : Int} (h : st.env.lookup "n" = some (.int k)) (hk : Fits k) :
    Runs cfg body st (fizzBuzz k) { st with out := st.out ++ [fizzBuzz k] } := by
  have h3 : Runs cfg (modZero 3) st (.bool (decide ((3 : Int) ∣ k))) st := runs_modZero h hk (by omega)
  have h5 : Runs cfg (modZero 5) st (.bool (decide ((5 : Int) ∣ k))) st := runs_modZero h hk (by omega)
  have pr : ∀ s : String, Runs cfg (.block [.println (.stringLiteral s)]) st (.string s) { st with out := st.out ++ [.string s] } :=
    fun s => runs_block.2 ⟨[.string s], .cons (runs_println.2 ⟨st, ⟨1, rfl⟩, rfl⟩) .nil, rfl⟩
  have pn : Runs cfg (.block [.println (.symbol "n")]) st (.int k) { st with out := st.out ++ [.int k] } :=
    runs_block.2 ⟨[.int k], .cons (runs_println.2 ⟨st, runs_symbol.2 ⟨rfl, h⟩, rfl⟩) .nil, rfl⟩
  have ha : Runs cfg (.binary .and (.parenthesized (modZero 3)) (.parenthesized (modZero 5))) st
      (.bool (decide ((3 : Int) ∣ k ∧ (5 : Int) ∣ k))) st := by
    refine runs_binary.2 ⟨_, st, _, runs_parenthesized.2 h3, runs_parenthesized.2 h5, ?_⟩
    by_cases a : (3 : Int) ∣ k <;> simp [applyOp, Value.asBool, a]
  unfold body fizzBuzz
  refine runs_if.2 ⟨_, st, ha, ?_⟩
  by_cases a : (3 : Int) ∣ k
  · by_cases b : (5 : Int) ∣ k
    · simp only [a, b, and_self, decide_true, if_true]
      exact pr _
    · simp only [a, b, and_false, decide_false, if_false, if_true]
      refine runs_if.2 ⟨_, st, h3, ?_⟩
      simp only [a, decide_true]
      exact pr _
  · simp only [a, false_and, decide_false, if_false]
    refine runs_if.2 ⟨_, st, h3, ?_⟩
    simp only [a, decide_false]
    refine runs_if.2 ⟨_, st, h5, ?_⟩
    by_cases b : (5 : Int) ∣ k
    · simp only [b, decide_true, if_true]
      exact pr _
    · simp only [b, decide_false, if_false]
      exact pn

/-- The body of the loop. -/
private def step : Expr := .block [.assignment "n" (.symbol "i"), .functionCall "fizz_buzz" [.symbol "i"]]

private theorem each_step {cfg : Cfg} (hf : cfg.fns "fizz_buzz" = some (["n"], .block [body])) (ks : List Int) (hk : ∀ k ∈ ks, Fits k) :
    ∀ st : St, (st.env.lookup "n" = none ∨ st.env.bindings "n" ≠ none) →
      ∃ s, Each cfg "i" step ks st s ∧ s.out = st.out ++ ks.map fizzBuzz := by
  induction ks with
  | nil => intro st _; exact ⟨st, .nil, by simp⟩
  | cons k ks ih =>
    intro st hn
    have h0 : Runs cfg (.symbol "i") (st.set "i" (.int k)) (.int k) (st.set "i" (.int k)) :=
      runs_symbol.2 ⟨rfl, by rw [set_lookup, if_pos rfl]⟩
    have h1 : Runs cfg (.assignment "n" (.symbol "i")) (st.set "i" (.int k)) (.int k) ((st.set "i" (.int k)).set "n" (.int k)) := by
      refine runs_assignment.2 ⟨_, h0, rfl, ?_⟩
      rw [set_lookup, if_neg (by decide)]
      rcases hn with hn | hn
      · exact .inl hn
      · refine .inr ?_
        simpa [St.set, Map.insert] using hn
    have h2 : Runs cfg (.symbol "i") ((st.set "i" (.int k)).set "n" (.int k)) (.int k) ((st.set "i" (.int k)).set "n" (.int k)) :=
      runs_symbol.2 ⟨rfl, by rw [set_lookup, if_neg (by decide), set_lookup, if_pos rfl]⟩
    have h3 : Runs cfg (.functionCall "fizz_buzz" [.symbol "i"]) ((st.set "i" (.int k)).set "n" (.int k)) (fizzBuzz k)
        { (st.set "i" (.int k)).set "n" (.int k) with out := st.out ++ [fizzBuzz k] } := by
      refine runs_call.2 ⟨_, _, [.int k], _, _, hf, .cons h2 .nil, by simp,
        runs_block.2 ⟨_, .cons (runs_body (k := k) ?_ (hk k (by simp))) .nil, rfl⟩, rfl⟩
      simp [Env.lookup, Map.empty, St.set, Map.insert]
    obtain ⟨s, h4, h5⟩ := ih (fun k h => hk k (by simp [h])) { (st.set "i" (.int k)).set "n" (.int k) with out := st.out ++ [fizzBuzz k] }
      (.inr (by simp [St.set, Map.insert]))
    exact ⟨s, .cons (runs_block.2 ⟨_, .cons h1 (.cons h3 .nil), rfl⟩) h4, by simp [h5]⟩

/-- The program of main.rs, with any bounds given by conventional arithmetic, prints a line of dashes, FizzBuzz of the
integers from the first bound up to but not including the second, and another line of dashes. -/
theorem c113_demo (i j : Int) (t u : List Char) (hi : Arith 0 i t) (hj : Arith 0 j u) :
    Prints S (demo t u) (.string "----" :: ((intRange i j).map fizzBuzz ++ [.string "----"])) := by
  obtain ⟨e, h1, h2⟩ := arith_ex hi
  obtain ⟨e', h3, h4⟩ := arith_ex hj
  intro checks n hn
  refine ⟨_, c77_program S n _ _ hn (demo_prog h2 h4), ?_⟩
  have key : ∀ cfg : Cfg, cfg.fns "fizz_buzz" = some (["n"], .block [body]) → ∃ v st, Runs cfg
      (.block [.println (.stringLiteral "----"), forLoop "i" e e' step, .println (.stringLiteral "----")]) St.new v st ∧
      st.out = .string "----" :: ((intRange i j).map fizzBuzz ++ [.string "----"]) := by
    intro cfg hf
    have fi := num_fits h1
    have fj := num_fits h3
    obtain ⟨s, h5, h6⟩ := each_step hf (intRange i j) (fun k hk => by
      rw [c47_range] at hk
      unfold Fits at *
      omega) { St.new with out := [.string "----"] } (.inl rfl)
    have h7 := (c47_for cfg "i" e e' step i j h3 fj fi (by
        refine .block fun x hx => ?_
        simp only [List.mem_cons, List.not_mem_nil, or_false] at hx
        rcases hx with rfl | rfl
        · exact .assignment (by decide) (.symbol _)
        · refine .functionCall fun y hy => ?_
          simp only [List.mem_cons, List.not_mem_nil, or_false] at hy
          subst hy
          exact .symbol _) { St.new with out := [.string "----"] } _ _ _ (.inr rfl)
      (c43_arithmetic cfg _ _ _ h1)).2 ⟨rfl, s, h5, rfl⟩
    refine ⟨_, _, runs_block.2 ⟨_, .cons (runs_println.2 ⟨St.new, ⟨1, rfl⟩, rfl⟩) (.cons h7
      (.cons (runs_println.2 ⟨_, ⟨1, rfl⟩, rfl⟩) .nil)), rfl⟩, ?_⟩
    simp [St.set, h6]
  obtain ⟨v, st, ⟨fuel, h5⟩, h6⟩ := key ⟨((Cfg.new checks).fns.insert "fizz_buzz" (["n"], .block [body])).insert "main"
    ([], .block [.println (.stringLiteral "----"), forLoop "i" e e' step, .println (.stringLiteral "----")]), checks⟩ rfl
  refine ⟨fuel, v, st, ?_, h6⟩
  simp only [demoExpr, callMain, Toys.define, Out.bind, Map.insert, if_true]
  exact h5

private theorem hundred : IntText 100 ['1', '0', '0'] :=
  .pos (ds := ['1', '0', '0']) ⟨by simp, by simp⟩ (by unfold Fits decimal; simp)

/-- The program as it stands in main.rs, with the bounds `1` and `100`, ends with 99, whose line is `Fizz`. -/
theorem c113_main (S : Std) : Prints S (demo ['1'] ['1', '0', '0'])
    (.string "----" :: ((intRange 1 100).map fizzBuzz ++ [.string "----"])) ∧ (intRange 1 100).getLast? = some 99 :=
  ⟨c113_demo S 1 100 _ _ (.sum (.product (.lit (digit_text '1' (by decide))))) (.sum (.product (.lit hundred))), by decide +kernel⟩

/-- The first lines of the output. -/
example : ((intRange 1 100).map fizzBuzz).take 15 = [.int 1, .int 2, .string "Fizz", .int 4, .string "Buzz", .string "Fizz", .int 7,
    .int 8, .string "Fizz", .string "Buzz", .int 11, .string "Fizz", .int 13, .int 14, .string "FizzBuzz"] := by rfl

end OniComb.Toys.Parse
