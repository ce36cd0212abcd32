import Verif.Tests.Parser
import Verif.Model.Regex

/-!
# The examples in the documentation of the library, run on the model

`/repo/parser/src/lib.rs`:30-1395, the examples in the comments, which the tool chain of the library runs as tests; the
name of the function is in front of each line.  As in `Tests/Parser`, these check the reading of the code.  The variants
for references have the examples of the variants for values.
-/

namespace OniComb.Tests

-- unit, empty
example : ok (parse (unit) (c "a")) = some (()) := by decide +kernel
-- end
example : isErr (parse (end_ (I := Char)) (c "a")) := by decide +kernel
-- successful, successful_lazy
example : ok (parse (successful 'a') (c "x")) = some ('a') := by decide +kernel
-- failed, failed_with_commit, failed_with_uncommit, failed_lazy
example : ∀ k : Committed, parse (failed (A := Unit) .incomplete k) (c "x") = .err .incomplete := by intro k; rfl
example : ∀ k : Committed, failed (A := Unit) .incomplete k ⟨c "x", 0⟩ = .failure .incomplete k := by intro k; rfl
-- elm_any
example : ok (parse (elmAny) (c "x")) = some ('x') := by decide +kernel
-- elm
example : ok (parse (elm 'x') (c "x")) = some ('x') := by decide +kernel
-- elm_pred
example : ok (parse (elmPred (· == 'x')) (c "x")) = some ('x') := by decide +kernel
-- elm_of
example : ok (parse (many1 (elmOf (c "xyz"))) (c "xyz")) = some (c "xyz") := by decide +kernel
-- elm_in
example : ok (parse (many1 (elmIn 'x' 'z')) (c "xyz")) = some (c "xyz") := by decide +kernel
-- elm_from_until
example : ok (parse (many1 (elmFromUntil 'w' 'z')) (c "wxy")) = some (c "wxy") := by decide +kernel
-- none_of
example : ok (parse (many1 (noneOf (c "abc"))) (c "xyz")) = some (c "xyz") := by decide +kernel
-- elm_space
example : ok (parse (many1 (elmSpace)) (c "   ")) = some (c "   ") := by decide +kernel
-- elm_multi_space
example : ok (parse (many1 (elmMultiSpace)) (c " \n ")) = some (c " \n ") := by decide +kernel
-- elm_alpha
example : ok (parse (many1 (elmAlpha)) (c "abcxyz")) = some (c "abcxyz") := by decide +kernel
-- elm_alpha_digit
example : ok (parse (many1 (elmAlphaDigit)) (c "abc0123xyz")) = some (c "abc0123xyz") := by decide +kernel
-- elm_digit
example : ok (parse (many1 (elmDigit)) (c "0123456789")) = some (c "0123456789") := by decide +kernel
-- elm_digit_1_9
example : ok (parse (many1 (elmDigit19)) (c "123456789")) = some (c "123456789") := by decide +kernel
-- elm_hex_digit
example : ok (parse (many1 (elmHexDigit)) (c "0123456789ABCDEFabcdef")) = some (c "0123456789ABCDEFabcdef") := by decide +kernel
-- elm_oct_digit
example : ok (parse (many1 (elmOctDigit)) (c "012345678")) = some (c "012345678") := by decide +kernel
-- seq
example : ok (parse (mapRes (collect (seq (b "abc"))) fun l => some (l.map fun y => Char.ofNat y.toNat)) (b "abc")) = some (c "abc") := by
  decide +kernel
-- tag, tag_no_case
example : ok (parse (tag (c "abc")) (c "abcdef")) = some (c "abc") := by decide +kernel
-- regex
example : ok (parse (regexOf (.cat (.set fun y => y == 'a' || y == 'b' || y == 'c') (.star (.set fun y => y == 'a' || y == 'b' || y == 'c')))) (c "abcdef")) = some (c "abc") := by decide +kernel
-- take
example : ok (parse (take 3) (c "abcdef")) = some (c "abc") := by decide +kernel
-- take_while0
example : ok (parse (takeWhile0 (Chr.between 'a' 'c')) (c "abcdef")) = some (c "abc") := by decide +kernel
-- take_while1
example : ok (parse (takeWhile1 (Chr.between 'a' 'c')) (c "abcdef")) = some (c "abc") := by decide +kernel
-- take_while_n_m
example : ok (parse (takeWhileNM 1 3 (Chr.between 'a' 'c')) (c "abcdef")) = some (c "abc") := by decide +kernel
-- take_till0
example : ok (parse (takeTill0 (· == 'c')) (c "abcdef")) = some (c "abc") := by decide +kernel
-- take_till1
example : ok (parse (takeTill1 (· == 'c')) (c "abcdef")) = some (c "abc") := by decide +kernel
-- skip
example : ok (parse (skipLeft (skip 3) (tag (c "def"))) (c "abcdef")) = some (c "def") := by decide +kernel
-- surround
example : ok (parse (surround (elm '(') (tag (c "abc")) (elm ')')) (c "(abc)")) = some (c "abc") := by decide +kernel
-- lazy
example : ok (parse (lazy fun _ => tag (c "abc")) (c "abc")) = some (c "abc") := by decide +kernel

-- /repo/parser/examples/hello_world.rs
example : ok (parse (mapRes (surround (elm (x '\'')) (collect (andThen (andThen (seq (b "hello")) elmSpace) (seq (b "world"))))
    (andThen (elm (x '\'')) (elm (x ';')))) fun l => some (l.map fun y => Char.ofNat y.toNat)) (b "'hello world';")) =
    some (c "hello world") := by decide +kernel

end OniComb.Tests
