import Verif.Lemmas.ToysProgram
import Verif.Props.Toys

/-!
# C76–C84: the toys parser

`S` stands for the characters beyond ASCII that `\d` of the `regex` crate matches; nothing depends on it.  `n` is how
often `lazy(expression)` and `lazy(line)` are unrolled, more than the length of the text being as good as any number
(`c79_depth`).  The languages `Prog`, `Body` and `Ex` are those of `Spec/ToysText`.
-/

namespace OniComb.Toys.Parse
open OniComb.Calc.Spec (Blank Digits)
open OniComb.Calc (BlankC blank_nil)
open OniComb.Toys.Text

variable (S : Std)

/-! ### Texts for the examples -/

/-- `fn main() { … }` -/
def mainText (t : List Char) : List Char := "fn main() { ".toList ++ (t ++ " }".toList)

theorem blank_one : Blank [' '] := by simp [Blank]

theorem _root_.OniComb.Toys.Text.Body.text {lax : Bool} {es : List Expr} {t u : List Char} (h : Body lax es t) (e : u = t) :
    Body lax es u := e ▸ h

theorem _root_.OniComb.Toys.Text.Prog.text {lax : Bool} {es : List Expr} {t u : List Char} (h : Text.Prog lax es t) (e : u = t) :
    Text.Prog lax es u := e ▸ h

theorem _root_.OniComb.Toys.Text.Line.text {lax o : Bool} {s : Expr} {t u : List Char} (h : Line lax o s t) (e : u = t) :
    Line lax o s u := e ▸ h

theorem not_else_blank : ¬ ElseFollows [' '] := by
  rintro ⟨b, r, hb, he⟩
  have : 'e' ∈ b ++ ("else".toList ++ r) := by simp
  rw [← he] at this
  exact absurd this (by decide)

theorem main_prog {o : Bool} {e : Expr} {t : List Char} (h : Line false o e t) :
    Text.Prog false [.functionDefinition "main" [] (.block [e])] (mainText t) := by
  have hb : Body false [e] ([' '] ++ (t ++ [' '])) := .cons blank_one h (.nil blank_one) (.inr (.inr not_else_blank))
  have hid : Ident "main" := ⟨'m', "ain".toList, by decide, by unfold Start; decide, by unfold Part Start; decide⟩
  have hd := Def.func (lax := false) (n := "main") (ns := []) (a := [' ']) (b := []) (u := []) (c := [' ']) blank_one hid blank_nil
    (.empty blank_nil) blank_one hb
  have := Text.Prog.cons (a := []) blank_nil hd (.nil (a := []) blank_nil)
  refine this.text ?_
  have e2 : "fn main() { ".toList = "fn".toList ++ ([' '] ++ ("main".toList ++ ['(', ')', ' ', '{', ' '])) := by decide
  have e3 : " }".toList = [' ', '}'] := by decide
  generalize "fn".toList = x, "main".toList = y at *
  unfold mainText
  rw [e2, e3]
  simp

theorem digit_text (c : Char) (h : '0' ≤ c ∧ c ≤ '9') : IntText (c.toNat - 48 : Nat) [c] := by
  have hd : Digits [c] := ⟨by simp, by simpa using h⟩
  have hc : c.toNat ≤ 57 := h.2
  have := IntText.pos hd (by unfold Fits decimal; simp; omega)
  simpa [decimal] using this

theorem digit_ex (c : Char) (h : '0' ≤ c ∧ c ≤ '9') : Prim false (.integerLiteral (c.toNat - 48 : Nat)) [c] :=
  .int (digit_text c h)

theorem println_line {e : Expr} {t : List Char} (h : Ex false e t) :
    Line false false (.println e) ("println(".toList ++ (t ++ ");".toList)) := by
  have := Line.println (lax := false) (a := []) (b := []) (c := []) (d := []) blank_nil blank_nil h blank_nil blank_nil
  have e1 : "println(".toList ++ (t ++ ");".toList) = "println".toList ++ ([] ++ '(' :: ([] ++ (t ++ ([] ++ ')' :: ([] ++ [';']))))) := by
    simp
  rw [e1]; exact this

/-! ### C76: whatever is read was written -/

/-- A program that is read is the meaning of a text at the beginning of the input. -/
theorem c76_program (n : Nat) (r : List Char) (e : Expr) (h : parse (program S n) r = .ok e) :
    ∃ es t rest, e = .program es ∧ r = t ++ rest ∧ Text.Prog true es t := by
  obtain ⟨t, rest, h1, h2⟩ := parse_ok.1 h
  obtain ⟨es, h3, h4, -⟩ := program_sound h2
  exact ⟨es, t, rest, h3, h1, h4⟩

/-- Statements that are read are the meaning of the whole input, and there is at least one. -/
theorem c76_lines (n : Nat) (r : List Char) (es : List Expr) (h : parse (lines S n) r = .ok es) :
    es ≠ [] ∧ Body true es r := lines_sound h

/-- An expression that is read is the meaning of a text at the beginning of the input. -/
theorem c76_expression (n : Nat) (r : List Char) (e : Expr) (h : parse (expression S n) r = .ok e) :
    ∃ a t b rest, r = a ++ (t ++ (b ++ rest)) ∧ Blank a ∧ Blank b ∧ Ex true e t := by
  obtain ⟨t, rest, h1, h2⟩ := parse_ok.1 h
  obtain ⟨a, u, b, rfl, h3, h4, h5⟩ := expression_sound n e t rest h2
  exact ⟨a, u, b, rest, by simpa using h1, h3, h4, h5⟩

/-! ### C77: whatever is written is read -/

/-- A program of the strict language is read with its meaning, whatever its layout. -/
theorem c77_program (n : Nat) (t : List Char) (es : List Expr) (hn : t.length < n) (h : Text.Prog false es t) :
    parse (program S n) t = .ok (.program es) :=
  parse_ok.2 ⟨t, [], by simp, program_reads h hn noHead_nil' ⟨_, fail_top noHead_nil' noHead_nil'⟩⟩

/-- So are statements, … -/
theorem c77_lines (n : Nat) (t : List Char) (es : List Expr) (hn : t.length < n) (hes : es ≠ [])
    (h : Body false es t) : parse (lines S n) t = .ok es := lines_reads hes h hn

/-- … and expressions. -/
theorem c77_expression (n : Nat) (t : List Char) (e : Expr) (hn : t.length < n) (h : Ex false e t) :
    parse (expression S n) t = .ok e := by
  obtain ⟨w, r, h1, -, h2⟩ := expression_reads (S := S) n e t [] h hn (follow_nil blank_nil)
  obtain ⟨rfl, rfl⟩ : w = [] ∧ r = [] := by simpa using h1.symm
  exact parse_ok.2 ⟨t, [], by simp, by simpa using h2⟩

/-- `global x = 1 ;⏎fn f(a, b,) { if (a < x) { println(b); } else g(a)  ; }` -/
example : Text.Prog false [.globalVariableDefinition "x" (.integerLiteral 1), .functionDefinition "f" ["a", "b"]
    (.block [.if (.binary .lessThan (.symbol "a") (.symbol "x")) (.block [.println (.symbol "b")])
      (some (.functionCall "g" [.symbol "a"]))])]
    "global x = 1 ;\nfn f(a, b,) { if (a < x) { println(b); } else g(a)  ; }".toList := by
  have id1 : ∀ n : Name, ∀ c, n.toList = [c] → Start c → Ident n := fun n c h hc => ⟨c, [], h, hc, by simp⟩
  have ia := id1 "a" 'a' (by decide) (by unfold Start; decide)
  have ib := id1 "b" 'b' (by decide) (by unfold Start; decide)
  have ig := id1 "g" 'g' (by decide) (by unfold Start; decide)
  have ix := id1 "x" 'x' (by decide) (by unfold Start; decide)
  have iF := id1 "f" 'f' (by decide) (by unfold Start; decide)
  have var : ∀ n : Name, Ident n → (∀ r, n.toList ≠ 'f' :: r) → ¬ ['t', 'r', 'u', 'e'] <+: n.toList →
    Prim false (.symbol n) n.toList := fun n h h1 h2 => .var h (.inl ⟨h1, h2⟩)
  have va := var "a" ia (by intro r h; cases h) (by decide)
  have vb := var "b" ib (by intro r h; cases h) (by decide)
  have vx := var "x" ix (by intro r h; cases h) (by decide)
  have sp := blank_one
  have one : ∀ {e t}, Prim false e t → Ex false e t := fun h => .one (.one (.one (.one h)))
  have cond : Ex false (.binary .lessThan (.symbol "a") (.symbol "x")) _ :=
    .op (a := [' ']) (b := [' ']) (one va) sp .lt sp (.one (.one (.one vx)))
  have print : Line false false (.println (.symbol "b")) _ :=
    .println (a := []) (b := []) (c := []) (d := []) blank_nil blank_nil (one vb) blank_nil blank_nil
  have blk : Line false false (.block [.println (.symbol "b")]) _ :=
    .block (.cons (a := [' ']) sp print (.nil (a := [' ']) sp) (.inr (.inl rfl)))
  have call : Line false false (.functionCall "g" [.symbol "a"]) _ :=
    .expr (a := [' ', ' ']) (one (.call (a := []) ig blank_nil (.plain (a := []) (b := []) blank_nil (.one (one va)) blank_nil)))
      (by simp [Blank]) (.inr (by
        rintro ⟨k, hk, b, r, -, h⟩
        have key : ∀ k ∈ ["println", "while", "if", "for"], k.toList.head? ≠ some 'g' := by decide
        have h1 := key k hk
        have h2 := congrArg List.head? h
        have h3 : k.toList ≠ [] := by
          have : ∀ k ∈ ["println", "while", "if", "for"], k.toList ≠ [] := by decide
          exact this k hk
        rw [List.head?_append (l := k.toList), Option.or_of_isSome (by simp [h3])] at h2
        exact h1 h2.symm))
  have ifl := Line.ifElse (lax := false) (a := [' ']) (b := []) (c := []) (d := [' ']) (f := [' ']) (g := [' ']) sp blank_nil
    cond blank_nil sp blk (.inr rfl) sp sp call
  have fn := Def.func (lax := false) (a := [' ']) (b := []) (c := [' ']) sp iF blank_nil (.trailing (a := []) (b := []) (c := [])
    blank_nil (.cons (a := []) (b := [' ']) (⟨ia, rfl⟩ : IsName "a" _) blank_nil sp (.one ⟨ib, rfl⟩)) blank_nil blank_nil) sp
    (.cons (a := [' ']) sp ifl (.nil (a := [' ']) sp) (.inr (.inl rfl)))
  have gl := Def.glob (lax := false) (a := [' ']) (b := [' ']) (c := [' ']) (d := [' ']) sp ix sp sp
    (one (digit_ex '1' (by decide))) sp
  have := Text.Prog.cons (a := []) blank_nil gl (.cons (a := ['\n']) (by simp [Blank]) fn (.nil (a := []) blank_nil))
  exact this

/-! ### C78: errors -/

/-- `program` never reports an error: it succeeds on every input. -/
theorem c78_program_violated (n : Nat) (r : List Char) (hn : r.length < n) : ∃ es, parse (program S n) r = .ok (.program es) := by
  have hr := program_ret (S := S) hn
  have hs := Good.safe (program S n) ⟨r, 0⟩ (Nat.zero_le _)
  unfold Ret at hr
  cases h : program S n ⟨r, 0⟩ with
  | success v m =>
    obtain ⟨t, rest, -, -, h1⟩ := success_split h
    obtain ⟨es, rfl, -⟩ := program_sound h1
    exact ⟨es, by unfold parse; rw [h]; rfl⟩
  | failure e c =>
    exfalso
    have hf : Fail (program S n) r c := ⟨e, h⟩
    unfold program at hf
    rcases fail_skipLeft.1 hf with h1 | ⟨t, w, rest, -, -, h1⟩
    · exact Calc.fail_space h1
    · exact fail_many0 (fail_map.1 h1)
  | panic => rw [h] at hs; exact absurd hs (by simp [SafeAt])
  | diverge => exact absurd h hr

/-- What stands after a program and does not begin with a definition is dropped without notice. -/
theorem c78_dropped_violated (n : Nat) (t : List Char) (c : Char) (junk : List Char) (es : List Expr)
    (hn : (t ++ c :: junk).length < n) (h : Text.Prog false es t) (hc : ¬ Blank [c])
    (hj : ∀ e d rest, c :: junk = d ++ rest → ¬ Def true e d) :
    parse (program S n) (t ++ c :: junk) = .ok (.program es) := by
  rw [List.length_append] at hn
  have hb : NoHead BlankC (c :: junk) := noHead_cons.2 (by simpa [Blank, BlankC] using hc)
  refine parse_ok.2 ⟨t, c :: junk, rfl, program_reads h (by omega) hb ?_⟩
  have hret : Ret (topLevelDefinition S n) (c :: junk) := top_ret (by omega)
  refine ((outcomes (topLevelDefinition S n) (c :: junk)).resolve_left ?_).resolve_right fun h => h hret
  rintro ⟨d, e, rest, e1, h1⟩
  obtain ⟨a, u, b, rfl, ha, -, h2⟩ := top_sound _ _ _ h1
  cases a with
  | nil => exact hj e u (b ++ rest) (by simpa using e1) h2
  | cons x a =>
    have : c = x := by simpa using congrArg List.head? e1
    exact noHead_cons.1 hb (this ▸ ha x (by simp))

/-- `lines` does report errors: it succeeds only if the whole input consists of statements.  (The full property, the
same for `program`, does not hold: `c78_program_violated`.) -/
theorem c78_lines_partial (n : Nat) (r : List Char) (hn : r.length < n) :
    (∃ es, parse (lines S n) r = .ok es ∧ Body true es r) ∨ ∃ e, parse (lines S n) r = .err e := by
  have hr := lines_ret (S := S) hn
  have hs := Good.safe (lines S n) ⟨r, 0⟩ (Nat.zero_le _)
  unfold Ret at hr
  cases h : lines S n ⟨r, 0⟩ with
  | success v m =>
    have h1 : parse (lines S n) r = .ok v := by unfold parse; rw [h]; rfl
    exact .inl ⟨v, h1, (lines_sound h1).2⟩
  | failure e c => exact .inr ⟨e, by unfold parse; rw [h]; rfl⟩
  | panic => rw [h] at hs; exact absurd hs (by simp [SafeAt])
  | diverge => exact absurd h hr

/-- A misspelt keyword, for example `fun g() { }`, makes the parser ignore everything from there on. -/
example (junk : List Char) : ¬ Blank ['f'] ∧ ∀ e d rest, 'f' :: 'u' :: junk = d ++ rest → ¬ Def true e d := by
  refine ⟨by simp [Blank], fun e d rest h1 h2 => ?_⟩
  cases h2 with
  | glob => exact absurd (congrArg List.head? h1) (by simp)
  | func => exact absurd (congrArg (·[1]?) h1) (by simp)

/-! ### C79: termination -/

/-- The number of unrollings does not matter: expressions, statements and programs are read in a recursion not
deeper than the text is long. -/
theorem c79_depth (n m : Nat) (t : List Char) (hn : t.length < n) (hm : t.length < m) :
    parse (program S n) t = parse (program S m) t ∧ parse (lines S n) t = parse (lines S m) t := by
  have key : ∀ n m, n ≤ m → t.length < n → parse (program S n) t = parse (program S m) t ∧
      parse (lines S n) t = parse (lines S m) t := by
    intro n m hnm hn
    have h1 := below_program (S := S) hnm
    have h2 := below_lines (S := S) hnm
    unfold parse
    rw [h1.eq (program_ret hn), h2.eq (lines_ret hn)]
    exact ⟨rfl, rfl⟩
  rcases Nat.le_total n m with h | h
  · exact key n m h hn
  · exact ⟨(key m n h hm).1.symm, (key m n h hm).2.symm⟩

/-- Every input is answered: neither parser panics or runs forever. -/
theorem c79_total (n : Nat) (t : List Char) (hn : t.length < n) :
    (∃ e, parse (program S n) t = .ok e) ∧ ((∃ es, parse (lines S n) t = .ok es) ∨ ∃ e, parse (lines S n) t = .err e) := by
  obtain ⟨es, h⟩ := c78_program_violated S n t hn
  refine ⟨⟨_, h⟩, ?_⟩
  rcases c78_lines_partial S n t hn with ⟨es, h, -⟩ | h
  · exact .inl ⟨es, h⟩
  · exact .inr h

/-! ### C80: names -/

/-- A variable whose name begins neither with `f` nor with `true` can be read. (The full property, for every name,
does not hold: `c80_names_violated`.) -/
theorem c80_names_partial (n : Nat) (x : Name) (hn : x.toList.length < n) (hx : Ident x)
    (h1 : ∀ r, x.toList ≠ 'f' :: r) (h2 : ¬ "true".toList <+: x.toList) :
    parse (expression S n) x.toList = .ok (.symbol x) :=
  c77_expression S n _ _ hn (.one (.one (.one (.one (.var hx (.inl ⟨h1, h2⟩))))))

/-- Other names, apart from `f`, `fa`, `fal` and `fals` at the very end of the input, are never read as variables, in
whatever expression and whatever context. -/
theorem c80_names_violated (n : Nat) (x : Name)
    (hx : (∃ r, x.toList = 'f' :: r) ∨ "true".toList <+: x.toList) (hx' : x.toList ∉ ["f", "fa", "fal", "fals"].map String.toList)
    (t : List Char) (e : Expr) (h : parse (expression S n) t = .ok e) : ¬ Mentions x e := by
  intro hm
  obtain ⟨a, u, b, rest, -, -, -, h1⟩ := c76_expression S n t e h
  rcases ex_mentions h1 hm with ⟨h2, h3⟩ | h2
  · rcases hx with ⟨r, hx⟩ | hx
    · exact h2 r hx
    · exact h3 hx
  · have key : ∀ m ∈ List.range 5, "fals".toList.take m ∈ ["", "f", "fa", "fal", "fals"].map String.toList := by decide
    have h3 := key x.toList.length (List.mem_range.2 (by have := h2.length_le; exact Nat.lt_succ_of_le this))
    rw [← List.prefix_iff_eq_take.1 h2] at h3
    rcases List.mem_cons.1 h3 with h3 | h3
    · rw [h3] at hx
      rcases hx with ⟨r, hx⟩ | hx
      · cases hx
      · exact absurd hx (by decide)
    · exact hx' h3

example : (∃ r, "foo".toList = 'f' :: r) ∧ Ident "foo" ∧ "foo".toList ∉ ["f", "fa", "fal", "fals"].map String.toList :=
  ⟨⟨"oo".toList, by decide⟩, ⟨'f', "oo".toList, by decide, by unfold Start; decide, by unfold Part Start; decide⟩, by decide⟩

/-! ### C81: precedence -/

/-- What a program prints, whether or not overflow is checked. -/
def Prints (src : List Char) (out : List Value) : Prop := ∀ checks : Bool, ∀ n, src.length < n →
  ∃ p, parse (program S n) src = .ok p ∧ ∃ fuel v st, callMain fuel (Cfg.new checks) St.new p = .ok v st ∧ st.out = out

/-- The functions of a program that consists of `main`. -/
theorem main_prints {o : Bool} {e : Expr} {t : List Char} {out : List Value} (h : Line false o e t)
    (hr : ∀ cfg : Cfg, ∃ v st, Runs cfg e St.new v st ∧ st.out = out) : Prints S (mainText t) out := by
  intro checks n hn
  refine ⟨_, c77_program S n _ _ hn (main_prog h), ?_⟩
  obtain ⟨v, st, h1, h2⟩ := hr { Cfg.new checks with fns := (Cfg.new checks).fns.insert "main" ([], .block [e]) }
  have h3 : Runs { Cfg.new checks with fns := (Cfg.new checks).fns.insert "main" ([], .block [e]) } (.block [e]) St.new v st :=
    runs_block.2 ⟨[v], .cons h1 .nil, rfl⟩
  obtain ⟨fuel, h3⟩ := h3
  refine ⟨fuel, v, st, ?_, h2⟩
  simp only [callMain, Toys.define, Out.bind, Map.insert, if_true]
  exact h3

/-- Arithmetic with `+`, `-`, `*`, `/` and parentheses has its conventional value: the program that prints it prints
that value.  (The full property, for all operators, does not hold: `c81_mod_violated`, `c81_and_violated`.) -/
theorem c81_arithmetic_partial (i : Int) (t : List Char) (h : Arith 0 i t) :
    Prints S (mainText ("println(".toList ++ (t ++ ");".toList))) [.int i] := by
  obtain ⟨e, h1, h2⟩ := arith_ex h
  refine main_prints S (println_line h2) fun cfg => ?_
  exact ⟨.int i, _, runs_println.2 ⟨St.new, c43_arithmetic cfg _ e i h1, rfl⟩, rfl⟩

/-- `(1 +2)*3 - 4/2 - 1` is 6. -/
example : Arith 0 6 "(1 +2)*3 - 4/2 - 1".toList := by
  have d : ∀ c, '0' ≤ c ∧ c ≤ '9' → Arith 2 (c.toNat - 48 : Nat) [c] := fun c h => .lit (digit_text c h)
  have sp := blank_one
  have fits : ∀ i : Int, -100 ≤ i ∧ i ≤ 100 → Fits i := by intro i h; unfold Fits; omega
  have s3 : Arith 0 3 _ := .add (a := [' ']) (b := []) (.sum (.product (d '1' (by decide)))) sp blank_nil (.product (d '2' (by decide)))
    (fits _ (by decide))
  have p9 : Arith 1 9 _ := .mul (a := []) (b := []) (.product (.paren (a := []) (b := []) blank_nil s3 blank_nil)) blank_nil blank_nil
    (d '3' (by decide)) (fits _ (by decide))
  have p2 : Arith 1 2 _ := .div (a := []) (b := []) (.product (d '4' (by decide))) blank_nil blank_nil (d '2' (by decide)) (by decide)
    (fits _ (by decide))
  have s7 : Arith 0 7 _ := .sub (a := [' ']) (b := [' ']) (.sum p9) sp sp p2 (fits _ (by decide))
  exact .sub (a := [' ']) (b := [' ']) s7 sp sp (.product (d '1' (by decide))) (fits _ (by decide))

/-- `%` binds less tightly than `*`: `a % b * c` is `a % (b * c)`. -/
theorem c81_mod_violated (n : Nat) (i j k : Int) (t u v : List Char) (hi : IntText i t) (hj : IntText j u) (hk : IntText k v)
    (hn : (t ++ (" % ".toList ++ (u ++ (" * ".toList ++ v)))).length < n) :
    parse (expression S n) (t ++ (" % ".toList ++ (u ++ (" * ".toList ++ v)))) =
      .ok (.binary .mod (.integerLiteral i) (.binary .multiply (.integerLiteral j) (.integerLiteral k))) := by
  refine c77_expression S n _ _ hn ?_
  have h1 : Chain (Prim false) MulOp (.binary .multiply (.integerLiteral j) (.integerLiteral k)) _ :=
    .op (a := [' ']) (b := [' ']) (.one (.int hj)) blank_one .mul blank_one (.int hk)
  have h2 : Chain (Chain (Prim false) MulOp) ModOp _ _ :=
    .op (a := [' ']) (b := [' ']) (.one (.one (.int hi))) blank_one .mod blank_one h1
  have e1 : t ++ (" % ".toList ++ (u ++ (" * ".toList ++ v))) =
    t ++ ([' '] ++ (['%'] ++ ([' '] ++ (u ++ ([' '] ++ (['*'] ++ ([' '] ++ v))))))) := by simp
  rw [e1]
  exact .one (.one h2)

/-- `7 % 4 * 2` prints 7, not 6. -/
theorem c81_mod_value_violated : Prints S (mainText ("println(".toList ++ ("7 % 4 * 2".toList ++ ");".toList))) [.int 7] := by
  have h1 : Chain (Prim false) MulOp (.binary .multiply (.integerLiteral 4) (.integerLiteral 2)) _ :=
    .op (a := [' ']) (b := [' ']) (.one (digit_ex '4' (by decide))) blank_one .mul blank_one (digit_ex '2' (by decide))
  have h2 : Chain (Chain (Prim false) MulOp) ModOp (.binary .mod (.integerLiteral 7) _) _ :=
    .op (a := [' ']) (b := [' ']) (.one (.one (digit_ex '7' (by decide)))) blank_one .mod blank_one h1
  refine main_prints S (println_line (t := "7 % 4 * 2".toList) (.one (.one h2))) fun cfg => ?_
  have fits : ∀ i : Int, -100 ≤ i ∧ i ≤ 100 → Fits i := by intro i h; unfold Fits; omega
  have h3 : Num (.binary .mod (.integerLiteral 7) (.binary .multiply (.integerLiteral 4) (.integerLiteral 2))) 7 :=
    .mod (a := 7) (b := 8) (.lit 7 (fits _ (by decide))) (.mul (a := 4) (b := 2) (.lit 4 (fits _ (by decide))) (.lit 2 (fits _ (by decide)))
      (fits _ (by decide))) (by decide) (fits _ (by decide))
  exact ⟨.int 7, _, runs_println.2 ⟨St.new, c43_arithmetic cfg _ _ _ h3, rfl⟩, rfl⟩

/-- `&&` binds no less tightly than `<`: `a < b && c < d` is `((a < b) && c) < d`, which panics for all integers. -/
theorem c81_and_violated (n : Nat) (i j k l : Int) (t u v w : List Char) (hi : IntText i t) (hj : IntText j u)
    (hk : IntText k v) (hl : IntText l w)
    (hn : (t ++ (" < ".toList ++ (u ++ (" && ".toList ++ (v ++ (" < ".toList ++ w)))))).length < n) :
    ∃ e, parse (expression S n) (t ++ (" < ".toList ++ (u ++ (" && ".toList ++ (v ++ (" < ".toList ++ w)))))) = .ok e ∧
      ∀ cfg st, Panics cfg e st := by
  have one : ∀ {i t}, IntText i t → Chain (Chain (Chain (Prim false) MulOp) ModOp) AddOp (.integerLiteral i) t :=
    fun h => .one (.one (.one (.int h)))
  have h1 : Ex false (.binary .lessThan (.integerLiteral i) (.integerLiteral j)) _ :=
    .op (a := [' ']) (b := [' ']) (.one (one hi)) blank_one .lt blank_one (one hj)
  have h2 : Ex false (.binary .and _ (.integerLiteral k)) _ := .op (a := [' ']) (b := [' ']) h1 blank_one .and blank_one (one hk)
  have h3 : Ex false (.binary .lessThan _ (.integerLiteral l)) _ := .op (a := [' ']) (b := [' ']) h2 blank_one .lt blank_one (one hl)
  refine ⟨.binary .lessThan (.binary .and (.binary .lessThan (.integerLiteral i) (.integerLiteral j)) (.integerLiteral k))
    (.integerLiteral l), c77_expression S n _ _ hn ?_, fun cfg st => ⟨4, ?_⟩⟩
  · have e1 : t ++ (" < ".toList ++ (u ++ (" && ".toList ++ (v ++ (" < ".toList ++ w))))) =
      (((t ++ ([' '] ++ (['<'] ++ ([' '] ++ u)))) ++ ([' '] ++ (['&', '&'] ++ ([' '] ++ v)))) ++ ([' '] ++ (['<'] ++ ([' '] ++ w)))) := by
      simp
    rw [e1]; exact h3
  · simp only [interpret, Out.bind, applyOp, ints, Value.asInt, Value.asBool]
    by_cases h : i < j <;> simp [h]

/-! ### C82: `else` -/

/-- A word that begins with `else`, after an `if` statement, is taken apart: `if (c) s elsex = e;` assigns to `x` if the
condition is false, although `elsex` is a name. -/
theorem c82_else_violated (n : Nat) (c s e : Expr) (t u v : List Char) (x : Name) (hc : Ex false c t) (hs : Line false false s u)
    (hx : Ident x) (he : Ex false e v)
    (hn : ("if (".toList ++ (t ++ (") ".toList ++ (u ++ (" else".toList ++ (x.toList ++ (" = ".toList ++ (v ++ [';'])))))))).length < n) :
    parse (lines S n) ("if (".toList ++ (t ++ (") ".toList ++ (u ++ (" else".toList ++ (x.toList ++ (" = ".toList ++ (v ++ [';'])))))))) =
      .ok [.if c s (some (.assignment x e))] ∧ Ident ("else" ++ x) := by
  constructor
  · refine c77_lines S n _ _ hn (by simp) ?_
    have h1 := Line.assign (lax := false) (a := [' ']) (b := [' ']) (c := []) hx blank_one blank_one he blank_nil
    have h2 := Line.ifElse (lax := false) (a := [' ']) (b := []) (c := []) (d := [' ']) (f := [' ']) (g := []) blank_one blank_nil hc
      blank_nil blank_one hs (.inr rfl) blank_one blank_nil h1
    have h3 := Body.cons (a := []) blank_nil h2 (.nil (a := []) blank_nil) (.inr (.inl rfl))
    exact h3.text (by simp)
  · obtain ⟨d, r, e1, h1, h2⟩ := hx
    refine ⟨'e', "lse".toList ++ x.toList, by simp, by unfold Start; decide, fun y hy => ?_⟩
    rcases List.mem_append.1 hy with hy | hy
    · have key : ∀ y ∈ "lse".toList, Part y := by unfold Part Start; decide
      exact key y hy
    · rw [e1] at hy
      rcases List.mem_cons.1 hy with rfl | hy
      · exact .inl h1
      · exact h2 y hy

example : Line false false (.println (.integerLiteral 1)) "println(1);".toList ∧ Ident "where" :=
  ⟨println_line (t := ['1']) (.one (.one (.one (.one (digit_ex '1' (by decide)))))),
    ⟨'w', "here".toList, by decide, by unfold Start; decide, by unfold Part Start; decide⟩⟩

/-- Where no word beginning with `else` follows, an `if` without `else` and the next statement are read separately. (The
full property, where the next statement does not begin with the keyword `else`, does not hold: `c82_else_violated`.) -/
theorem c82_else_partial (n : Nat) (c s e : Expr) (t u v : List Char) (o o' : Bool) (hc : Ex false c t) (hs : Line false o s u)
    (he : Line false o' e v) (hv : ¬ "else".toList <+: v) (hn : ("if (".toList ++ (t ++ (") ".toList ++ (u ++ v)))).length < n) :
    parse (lines S n) ("if (".toList ++ (t ++ (") ".toList ++ (u ++ v)))) = .ok [.if c s none, e] := by
  refine c77_lines S n _ _ hn (by simp) ?_
  have h1 := Line.ifThen (lax := false) (a := [' ']) (b := []) (c := []) (d := [' ']) blank_one blank_nil hc blank_nil blank_one hs
  have h2 : Body false [e] ([] ++ (v ++ [])) := .cons blank_nil he (.nil blank_nil) (.inr (.inr (by
    rintro ⟨b, r, -, hb⟩
    have := (congrArg List.length hb)
    simp at this)))
  have h3 := Body.cons (a := []) blank_nil h1 h2 (.inr (.inr (by
    rintro ⟨b, r, hb, he1⟩
    cases b with
    | nil => exact hv ⟨r, by simpa using he1.symm⟩
    | cons d b =>
      have := (line_solid he).2 d
      cases v with
      | nil => exact (line_solid he).1 rfl
      | cons x v =>
        have : x = d := by simpa using congrArg List.head? he1
        exact (line_solid he).2 x v rfl (this ▸ hb d (by simp)))))
  exact h3.text (by simp)

/-! ### C83: `for` -/

theorem num_fits {e : Expr} {i : Int} (h : Num e i) : Fits i := by
  induction h with
  | lit _ h => exact h
  | paren _ ih => exact ih
  | add _ _ h | sub _ _ h | mul _ _ h => exact h
  | div _ _ _ h => exact h
  | @mod l r a b _ _ hb _ _ ih =>
    have h1 := Int.natAbs_tmod a b
    have h2 : b.natAbs ≠ 0 := by simpa using hb
    have h3 := Nat.mod_lt a.natAbs (Nat.pos_of_ne_zero h2)
    unfold Fits at *
    omega

/-- `for (x in a to b) println(x);` prints the integers from `a` up to but not including `b`, in order, for all bounds
given by conventional arithmetic. -/
theorem c83_for (x : Name) (hx : Ident x) (hx' : Readable x) (i j : Int) (t u : List Char) (hi : Arith 0 i t) (hj : Arith 0 j u) :
    Prints S (mainText ("for (".toList ++ (x.toList ++ (" in ".toList ++ (t ++ (" to ".toList ++ (u ++
      (") println(".toList ++ (x.toList ++ ");".toList))))))))) ((intRange i j).map .int) := by
  obtain ⟨e1, h1, h2⟩ := arith_ex hi
  obtain ⟨e2, h3, h4⟩ := arith_ex hj
  have hb := println_line (.one (.one (.one (.one (.var hx (.inl hx') : Prim false _ _)))))
  have hl := Line.forDo (lax := false) (a := [' ']) (b := []) (c := [' ']) (d := [' ']) (f := [' ']) (g := [' ']) (h := []) (i := [' ']) (e := e1)
    blank_one blank_nil hx blank_one (.inr (by simp)) blank_one h2 blank_one (.inr (by simp)) blank_one h4 blank_nil blank_one hb
  refine main_prints S (hl.text (by simp)) fun cfg => ?_
  have each : ∀ (ks : List Int) (st : St), ∃ s, Each cfg x (.println (.symbol x)) ks st s ∧ s.out = st.out ++ ks.map .int := by
    intro ks
    induction ks with
    | nil => intro st; exact ⟨st, .nil, by simp⟩
    | cons k ks ih =>
      intro st
      obtain ⟨s, h1, h2⟩ := ih { st.set x (.int k) with out := st.out ++ [.int k] }
      exact ⟨s, .cons (runs_println.2 ⟨st.set x (.int k), runs_symbol.2 ⟨rfl, by rw [set_lookup, if_pos rfl]⟩, rfl⟩) h1, by simp [h2]⟩
  obtain ⟨s, h5, h6⟩ := each (intRange i j) St.new
  refine ⟨_, _, (c47_for cfg x _ _ _ i j h3 (num_fits h3) (num_fits h1) (.println (.symbol _)) St.new St.new _ _ (.inr rfl)
    (c43_arithmetic cfg _ _ _ h1)).2 ⟨rfl, s, h5, rfl⟩, ?_⟩
  simpa [St.new, St.set] using h6

example : Ident "i" ∧ Readable "i" :=
  ⟨⟨'i', [], by decide, by unfold Start; decide, by simp⟩, ⟨fun r h => (by cases h), by decide⟩⟩

/-! ### C84: no ambiguity -/

/-- No program of the strict language has two meanings. -/
theorem c84_program (t : List Char) (es es' : List Expr) (h : Text.Prog false es t) (h' : Text.Prog false es' t) : es = es' := by
  have h1 := c77_program ⟨fun _ => false⟩ _ t es (Nat.lt_succ_self _) h
  have h2 := c77_program ⟨fun _ => false⟩ _ t es' (Nat.lt_succ_self _) h'
  rw [h1] at h2
  cases h2; rfl

/-- `fn main() { println(1); }` is a program of the strict language. -/
example : Text.Prog false [.functionDefinition "main" [] (.block [.println (.integerLiteral 1)])] (mainText "println(1);".toList) :=
  main_prog (println_line (t := ['1']) (.one (.one (.one (.one (digit_ex '1' (by decide)))))))

/-- No expression of the strict language has two meanings. -/
theorem c84_expression (t : List Char) (e e' : Expr) (h : Ex false e t) (h' : Ex false e' t) : e = e' := by
  have h1 := c77_expression ⟨fun _ => false⟩ _ t e (Nat.lt_succ_self _) h
  have h2 := c77_expression ⟨fun _ => false⟩ _ t e' (Nat.lt_succ_self _) h'
  rw [h1] at h2
  cases h2; rfl

/-- `1` is an expression of the strict language. -/
example : Ex false (.integerLiteral 1) ['1'] := .one (.one (.one (.one (digit_ex '1' (by decide)))))

end OniComb.Toys.Parse
