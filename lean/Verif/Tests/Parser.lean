import Verif.Model.Chain
import Verif.Model.Repeat
import Verif.Model.Elements

/-!
# The unit tests of the library, run on the model

`/repo/parser/src/lib.rs`:1398-1919; the name of the test is in front of each line.  These are no proofs of
properties.  They check the reading of the code: the answers that the authors of the library wrote down are the answers
of the model.
-/

namespace OniComb.Tests

/-- `parse_as_result(..).ok()` -/
def ok {I A : Type} (r : Res.Out I A) : Option A :=
  match r with
  | .ok a => some a
  | _ => none

/-- `parse_as_result(..).is_err()` -/
def isErr {I A : Type} (r : Res.Out I A) : Bool :=
  match r with
  | .err _ => true
  | _ => false

/-- A text as bytes. -/
def b (s : String) : List UInt8 := s.toList.map fun c => UInt8.ofNat c.toNat

/-- A text as characters. -/
def c (s : String) : List Char := s.toList

/-- The byte of a character. -/
def x (c : Char) : UInt8 := UInt8.ofNat c.toNat

-- test_attempt
example : (ok (parse (or (attempt (failed .incomplete .committed)) (elm (x 'b'))) (b "b"))).isSome := by decide +kernel
example : (ok (parse (or (attempt (andThen (andThen (tag (c "abra")) elmSpace) (tag (c "abra"))))
    (andThen (andThen (tag (c "abra")) elmSpace) (tag (c "cadabra!")))) (c "abra cadabra!"))).isSome := by decide +kernel
-- test_successful_in_closure
example : ok (parse (lazy fun _ => successful 'a') (b "a")) = some 'a' := by decide +kernel
-- test_elem
example : ok (parse (elm (x 'a')) (b "a")) = some (x 'a') := by decide +kernel
-- test_elm_of
example : ∀ i < 6, ok (parse (elmIn (x 'a') (x 'f')) ((b "abcdef").drop i)) = (b "abcdef")[i]? := by decide +kernel
example : isErr (parse (elmIn (x 'a') (x 'f')) (b "g")) := by decide +kernel
-- test_none_of
example : ∀ i < 6, isErr (parse (noneOfSet (setIncl (x 'a') (x 'f'))) ((b "abcdef").drop i)) := by decide +kernel
example : ok (parse (noneOfSet (setIncl (x 'a') (x 'f'))) (b "g")) = some (x 'g') := by decide +kernel
-- test_peek
example : ok (parse (andThen (peek (elm 'a')) (tag (c "aname"))) (c "aname")) = some ('a', c "aname") := by decide +kernel
-- test_repeat
example : ok (parse (collect (repeat_ (elm (x 'a')) (.toIncl 3))) (b "")) = some [] := by decide +kernel
example : ok (parse (collect (repeat_ (elm (x 'a')) (.toIncl 3))) (b "a")) = some (b "a") := by decide +kernel
example : ok (parse (collect (repeat_ (elm (x 'a')) (.toIncl 3))) (b "aa")) = some (b "aa") := by decide +kernel
example : ok (parse (collect (repeat_ (elm (x 'a')) (.toIncl 3))) (b "aaa")) = some (b "aaa") := by decide +kernel
-- test_many_0
example : ok (parse (collect (many0 (elm (x 'a')))) (b "a")) = some (b "a") := by decide +kernel
example : ok (parse (collect (many0 (elm (x 'a')))) (b "aa")) = some (b "aa") := by decide +kernel
-- test_many_1
example : isErr (parse (collect (many1 (elm (x 'a')))) (b "")) := by decide +kernel
example : ok (parse (collect (many1 (elm (x 'a')))) (b "a")) = some (b "a") := by decide +kernel
example : ok (parse (collect (many1 (elm (x 'a')))) (b "aa")) = some (b "aa") := by decide +kernel
-- test_many_n_m
example : isErr (parse (andThen (collect (manyNM (elm (x 'a')) 1 2)) end_) (b "")) := by decide +kernel
example : ok (parse (andThen (collect (manyNM (elm (x 'a')) 1 2)) end_) (b "a")) = some (b "a", ()) := by decide +kernel
example : ok (parse (andThen (collect (manyNM (elm (x 'a')) 1 2)) end_) (b "aa")) = some (b "aa", ()) := by decide +kernel
example : isErr (parse (andThen (collect (manyNM (elm (x 'a')) 1 2)) end_) (b "aaa")) := by decide +kernel
-- test_count_sep
example : ok (parse (countSep (elm (x 'a')) 3 (elm (x ','))) (b "a,a,a")) = some (b "aaa") := by decide +kernel
-- test_seq
example : ok (parse (seq (b "abc")) (b "abc")) = some (b "abc") := by decide +kernel
-- test_tag
example : ok (parse (or (attempt (tag (c "abc"))) (tag (c "abe"))) (c "abe")) = some (c "abe") := by decide +kernel
-- test_tag_no_case
example : ok (parse (tagNoCase (c "abc")) (c "AbC")) = some (c "abc") := by decide +kernel
-- test_opt
example : ok (parse (opt (seq (b "abc"))) (b "abc")) = some (some (b "abc")) := by decide +kernel
-- test_not
example : ok (parse (not_ (seq (b "abc"))) (b "def")) = some () := by decide +kernel
-- test_take
example : ok (parse (flatMap (take 1) fun s => take (s.headD 0).toNat) (3 :: b "abc")) = some (b "abc") := by decide +kernel
-- test_take_2
example : ok (parse (collect (andThen (andThen (flatMap (andThen (elm 'a') (elm 'b')) fun e => map (skip 1) fun _ => e)
    elmAny) end_)) (c "abcd")) = some (c "abcd") := by decide +kernel
-- test_take_while0
example : ok (parse (takeWhile0 Byte.isDigit) (b "a123b")) = some (b "123") := by decide +kernel
example : (ok (parse (takeWhile0 Byte.isDigit) (b "def"))).isSome := by decide +kernel
-- test_take_while1
example : ok (parse (takeWhile1 Byte.isDigit) (b "a123b")) = some (b "123") := by decide +kernel
example : isErr (parse (takeWhile1 Byte.isDigit) (b "def")) := by decide +kernel
-- test_take_while_n_m
example : ok (parse (takeWhileNM 1 3 Byte.isDigit) (b "a1b")) = some (b "1") := by decide +kernel
example : ok (parse (takeWhileNM 1 3 Byte.isDigit) (b "a12b")) = some (b "12") := by decide +kernel
example : ok (parse (takeWhileNM 1 3 Byte.isDigit) (b "a123b")) = some (b "123") := by decide +kernel
example : isErr (parse (takeWhileNM 1 3 Byte.isDigit) (b "a1234b")) := by decide +kernel
example : isErr (parse (takeWhileNM 1 3 Byte.isDigit) (b "def")) := by decide +kernel
-- test_take_till0, test_take_till1
example : ok (parse (takeTill0 fun y => y == x 'c') (b "abcd")) = some (b "abc") := by decide +kernel
example : ok (parse (takeTill1 fun y => y == x 'c') (b "abcd")) = some (b "abc") := by decide +kernel
-- test_discard
example : ok (parse (discard (seq (b "abc"))) (b "abc")) = some () := by decide +kernel
example : isErr (parse (discard (seq (b "abc"))) (b "def")) := by decide +kernel
-- test_and_then
example : ok (parse (andThen (elm (x 'a')) (elm (x 'b'))) (b "ab")) = some (x 'a', x 'b') := by decide +kernel
-- test_last_offset
example : ok (parse (lastOffset (andThen (elm (x 'a')) (elm (x 'b')))) (b "ab")) = some 1 := by decide +kernel
-- test_or
example : ok (parse (or (elm (x 'a')) (elm (x 'b'))) (b "ab")) = some (x 'a') := by decide +kernel
example : ok (parse (or (elm (x 'a')) (elm (x 'b'))) (b "ba")) = some (x 'b') := by decide +kernel
-- test_skip_left, test_skip_right
example : ok (parse (skipLeft (elm (x 'a')) (elm (x 'b'))) (b "ab")) = some (x 'b') := by decide +kernel
example : ok (parse (skipRight (elm (x 'a')) (elm (x 'b'))) (b "ab")) = some (x 'a') := by decide +kernel
-- test_example1
example : ok (parse (andThen (andThen (elm 'a') (elm 'b')) (or (elm 'c') (elm 'd'))) (c "abc")) = some (('a', 'b'), 'c') := by
  decide +kernel
example : ok (parse (andThen (andThen (elm 'a') (elm 'b')) (or (elm 'c') (elm 'd'))) (c "abd")) = some (('a', 'b'), 'd') := by
  decide +kernel
-- test_example2
example : (ok (parse (andThen (elm 'a') (tag (c "name"))) (c "aname"))).isSome := by decide +kernel

/-- `p1` of test_filter and test_filter_not. -/
def blanks : Parser Char (List Char) := skipRight (skipLeft (tag (c "abc")) (many1 (elm ' '))) (tag (c "def"))

-- test_filter
example : isErr (parse (filter blanks fun l => decide (1 < l.length)) (c "abc def")) := by decide +kernel
example : (ok (parse (filter blanks fun l => decide (1 < l.length)) (c "abc  def"))).isSome := by decide +kernel
-- test_filter_not
example : (ok (parse (filterNot blanks fun l => decide (1 < l.length)) (c "abc def"))).isSome := by decide +kernel
example : isErr (parse (filterNot blanks fun l => decide (1 < l.length)) (c "abc  def")) := by decide +kernel

-- /repo/parser/tests/surround_static_tes.rs
example : ok (parse (surround (elm '(') (take 3) (elm ')')) (c "(abc)")) = some (c "abc") := by decide +kernel

end OniComb.Tests
