import Verif.Model.HoconResolve
import Verif.Tests.Parser

/-!
# The unit tests of `hocon`, run on the model

`/repo/hocon/src/model.rs`:138-312, `model/config_value.rs`:440-488, `model/config_duration_value.rs`:72-104,
`parsers.rs`:405-500 (the generators of the latter by samples), `/repo/hocon/tests/config.rs`.
-/

namespace OniComb.Tests.Hocon
open OniComb.Hocon
open OniComb.Uri (Bytes byte bytes)

mutual
/-- Equality of values, entries in order. -/
def same (v w : Value) : Bool :=
  match v, w with
  | .null, .null => true
  | .bool a, .bool b => a == b
  | .str a, .str b => a == b
  | .num a, .num b => decide (a = b)
  | .dur a u, .dur b v => decide (a = b) && decide (u = v)
  | .arr a, .arr b => sames a b
  | .obj a, .obj b => samesE a b
  | .incl a b, .incl c d => a == c && b == d
  | .link a b, .link c d => same a c && same b d
  | .ref none p m, .ref none q n => p == q && m == n
  | .ref (some v) p m, .ref (some w) q n => same v w && p == q && m == n
  | _, _ => false
def sames (v w : List Value) : Bool :=
  match v, w with
  | [], [] => true
  | a :: v, b :: w => same a b && sames v w
  | _, _ => false
def samesE (v w : List (Bytes × Value)) : Bool :=
  match v, w with
  | [], [] => true
  | (k, a) :: v, (l, b) :: w => k == l && same a b && samesE v w
  | _, _ => false
end

/-- Decimals of digits with at most one dot. -/
def std : Std := ⟨fun t =>
  let i := t.takeWhile (· != 46)
  let f := (t.drop i.length).drop 1
  if (i ++ f).all (fun c => 48 ≤ c ∧ c ≤ 57) then
    some ⟨(i ++ f).foldl (fun n c => n * 10 + (c.toNat - 48 : Int)) 0, f.length⟩
  else none⟩

/-- No files; the given variable. -/
def world (v : Option (String × String)) : World := ⟨fun _ => none, fun n =>
  match v with
  | some (k, s) => if n = bytes k then some (bytes s) else none
  | none => none⟩

/-- For all of the list, `ConfigFactory::new().parse_from_string(s).unwrap().get_value(p)` satisfies `q`. -/
def ats (w : World) (s : String) (qs : List (String × (Value → Bool))) : Bool :=
  match parseDocument std w 9 (bytes s) with
  | .ok (some v) => qs.all fun (p, q) => match getValue v (bytes p) with | .ok (some x) => q x | _ => false
  | _ => false

/-- The same for one path. -/
def at_ (w : World) (s p : String) (q : Value → Bool) : Bool := ats w s [(p, q)]

/-- The run panics. -/
def panics {A : Type} : OniComb.Hocon.Out A → Bool
  | .panic => true
  | _ => false

/-- The value is that string. -/
def isStr (s : String) (v : Value) : Bool := same v (.str (bytes s))

def simple : String := "
    foo {
      bar = \"baz\"
      test {
        a = \"aaaa\"
      }
    }
    foo {
      test {
        b = \"aaaa\"
        b = \"xxxx\"
      }
    }
    "

-- test_simple
example : ats (world none) simple [("foo.test.a", isStr "aaaa"), ("foo.test.b", isStr "xxxx")] := by decide +kernel

def paths : String := "
        x.y.a=1s
        x.y {
          c=3
          c.d.e = 5
        }
        x.y.b=[2.1, 10, 30]
        x.x.x=\"a\"
        "

-- path_as_key
example : ats (world none) paths [
    ("x.y.a", fun v => match v with
      | .dur d u => (match toDuration d u with | .ok n => n == 1000000000 | _ => false)
      | _ => false),
    ("x.y.b", (same · (.arr [.num ⟨21, 1⟩, .num ⟨10, 0⟩, .num ⟨30, 0⟩]))),
    ("x.y.c.d.e", (same · (.num ⟨5, 0⟩))),
    ("x.x.x", isStr "a")] := by decide +kernel

def refs : String := "
    foo {
      xyz = \"aaaa\"
      bar = \"baz\"
      bar = ${foo.xyz}
      test {
        a = \"aaaa\"
        a = ${foo.bar} 
      }
    }
    foo {
      test {
        b = \"bbbb\"
      }
    }
    "

-- test_eval_reference
example : ats (world none) refs [("foo.test.a", isStr "aaaa"), ("foo.test.b", isStr "bbbb")] := by decide +kernel

def envText : String := "
    foo {
      bar = \"baz\",
      bar = \"biz\",
      test {
        a = \"aaaa\",
        a = ${TEST_VAR} 
      }
    }
    "

def envMissing : String := "
    foo {
      bar = \"baz\"
      bar = \"biz\"
      test {
        a = \"aaaa\"
        a = ${?TEST_VAR} 
      }
    }
    "

-- test_environment_value_exists, _not_exists, _exists_fallback, _not_exists_fallback
example : at_ (world (some ("TEST_VAR", "12345"))) envText "foo.test.a" (isStr "12345") := by decide +kernel
example : panics (parseDocument std (world none) 9 (bytes envText)) := by decide +kernel
example : at_ (world (some ("TEST_VAR", "12345"))) envMissing "foo.test.a" (isStr "12345") := by decide +kernel
example : at_ (world none) envMissing "foo.test.a" (isStr "aaaa") := by decide +kernel

-- config_value.rs: test_push
example : let v := push (push (.bool true) (.str (bytes "ABC"))) .null
    same (latest v) .null ∧ same (prevLatest v) (.str (bytes "ABC")) := by decide +kernel

/-- The instant of a conversion. -/
def conv : Conv → Option Int
  | .ok n => some n
  | _ => none

-- config_duration_value.rs: test_to_std_duration, test_to_duration, test_to_duration_cross
example : ((durationFromStd 60000000000).bind fun (d, u) => conv (toStdDuration true d u)) = some 60000000000 := by
  decide +kernel
example : ((durationFromChrono 60000000000).bind fun (d, u) => conv (toDuration d u)) = some 60000000000 := by decide +kernel
example : ((durationFromChrono 86400000000000).bind fun (d, u) => conv (toStdDuration true d u)) = some 86400000000000 := by
  decide +kernel

-- parsers.rs: comment_test, space_test, space_or_comment_test, include_method_test, include_config_value_test, path_test
example : ok (parse (skipRight comment end_) (bytes "#abcXYZ")) = some (bytes "#abcXYZ") := by decide +kernel
example : ok (parse (skipRight comment end_) (bytes "//abcXYZ")) = some (bytes "//abcXYZ") := by decide +kernel
example : ok (parse (skipRight comment end_) (bytes "#")) = some (bytes "#") := by decide +kernel
example : ok (parse (skipRight space end_) (bytes " \r\n\t\t \n")) = some (bytes " \r\n\t\t \n") := by decide +kernel
example : ok (parse (skipRight spaceOrComment end_) (bytes " \r\n\t\t \n")) = some () := by decide +kernel
example : ok (parse (skipRight spaceOrComment end_) (bytes "//abcXYZ")) = some () := by decide +kernel
example : ok (parse (skipRight includeMethod end_) (bytes "file")) = some (bytes "file") := by decide +kernel
example : ok (parse (skipRight includeMethod end_) (bytes "url")) = some (bytes "url") := by decide +kernel
example : (ok (parse (skipRight includeConfigValue end_) (bytes "include file(\"abc\")"))).any
    (same · (.incl (bytes "file") (bytes "\"abc\""))) := by decide +kernel
example : (ok (parse (skipRight includeConfigValue end_) (bytes "include url(\"abc\")"))).any
    (same · (.incl (bytes "url") (bytes "\"abc\""))) := by decide +kernel
example : ok (parse (skipRight path end_) (bytes "a-b_.cD.-")) = some (bytes "a-b_.cD.-") := by decide +kernel

-- tests/config.rs: parse_a_1, parse_b_2, parse_bom, parse_test_01, with the texts of tests/data
example : at_ (world none) "a=1" "a" (same · (.num ⟨1, 0⟩)) := by decide +kernel
example : at_ (world none) "b=2" "b" (same · (.num ⟨2, 0⟩)) := by decide +kernel
example : at_ (world none) "#\nfoo = bar" "foo" (isStr "bar") := by decide +kernel
example : at_ (world none) "{\n    \"1\": 1\n}" "1" (same · (.num ⟨1, 0⟩)) := by decide +kernel

end OniComb.Tests.Hocon
