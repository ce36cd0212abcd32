import Verif.Spec.Follow
import Verif.Spec.HoconText

/-!
# Specification of the layout of configuration documents

A grammar of documents with free layout, written without the parser: `Layout.Val v t g r` says that the text `t`
denotes the value `v` where the gap `g` of blanks and comments and then the text `r` come behind it.  What comes
behind matters because nothing marks the end of numbers and of unquoted strings, and because the parser takes a
closing brace for the beginning of an unquoted key.
-/

namespace OniComb.Hocon
open OniComb OniComb.Hocon.Spec
open OniComb.Uri (Bytes byte bytes)

/-- A blank. -/
def Blank (b : UInt8) : Prop := b ∈ bytes " \t\r\n"

/-- Neither blank nor comment begins here. -/
def Quiet (r : Bytes) : Prop := NoHead (fun b => b ∈ bytes " \t\r\n#/") r

/-- Only blanks. -/
def Blanks (t : Bytes) : Prop := ∀ b ∈ t, Blank b

/-- Blanks, and then perhaps lines of comments. -/
def Gap (t : Bytes) : Prop := ∃ b cs, Blanks b ∧ (∀ c ∈ cs, CommentLine c) ∧ t = b ++ commentLines cs

/-- What must not follow a number. -/
def NumByte (b : UInt8) : Prop := Digit b ∨ b = byte '.' ∨ b = byte 'e' ∨ b = byte 'E'

/-- A letter. -/
def Letter (b : UInt8) : Prop := Element.isAlpha b = true

/-- A byte that ends an unquoted string. -/
def Special (b : UInt8) : Prop := b ∈ bytes "[]\r\n\\\"'"

/-- A string ends here. -/
def StrStop (r : Bytes) : Prop := NoHead (fun b => ¬ Special b ∨ b = byte '\\') r

end OniComb.Hocon

namespace OniComb.Hocon.Spec.Layout
open OniComb OniComb.Hocon OniComb.Hocon.Spec
open OniComb.Uri (Bytes byte bytes)

/-- The text of an unquoted string: valid UTF-8 without the bytes that end one, not beginning like a blank, a
comment, a number, a bracket, a reference or one of the words for constants. -/
def BareText (s : Bytes) : Prop :=
  s ≠ [] ∧ Uri.validUtf8 s = true ∧ (∀ b ∈ s, ¬ Special b) ∧
    NoHead (fun b => b ∈ bytes " \t#/-{$" ∨ Digit b) s ∧
    ∀ w ∈ [bytes "null", bytes "true", bytes "false"], ¬ w <+: s

/-- The text of a quoted string without empty content. -/
def QuotedText (s t : Bytes) : Prop :=
  ∃ q items, (q = '"' ∨ q = '\'') ∧ items ≠ [] ∧ ItemsOk items ∧ FirstOk items ∧
    t = byte q :: itemsText items ++ [byte q] ∧ s = denoted items

/-- The text of a key: a path, or a quoted string. -/
def KeyText (k t : Bytes) : Prop := (PathText t ∧ k = t) ∨ QuotedText k t

/-- What may come behind a brace that is not to be taken for the beginning of a key: a run of bytes up to a line
end, a quote or `]`, then a gap, and then no `=`, `:`, `{` or `[`. -/
def Guarded (x : Bytes) : Prop :=
  ∃ run g y, x = run ++ (g ++ y) ∧ (∀ b ∈ run, ¬ Special b) ∧ StrStop (g ++ y) ∧ Gap g ∧ Quiet y ∧
    NoHead (fun b => b ∈ bytes "=:{[") y

/-- What separates the entries of an object: nothing, or a comma and a gap. -/
def Sep (commas : Bool) (s : Bytes) : Prop := s = [] ∨ commas = true ∧ ∃ g, Gap g ∧ s = byte ',' :: g

/-- The entries an object holds of those that are written between its braces: a key that comes again has one more
definition, at the place of the first. -/
inductive Gathered : Entries → Entries → Prop where
  | nil : Gathered [] []
  | first {ps es : Entries} {k : Bytes} {v : Value} (h : Gathered ps es) (hk : k ∉ keys es) :
      Gathered (ps ++ [(k, v)]) (es ++ [(k, v)])
  | again {ps l r : Entries} {k : Bytes} {c v : Value} (h : Gathered ps (l ++ (k, c) :: r)) :
      Gathered (ps ++ [(k, v)]) (l ++ (k, .link c (remember c v)) :: r)

/-- A number at the end of which neither a number nor a duration goes on. -/
def EndsNumber (g r : Bytes) : Prop := NoHead NumByte (g ++ r) ∧ NoHead UnitStart r

variable (dec : Bytes → Option Decimal)

mutual
/-- The text of a value, the gap behind it and what comes then. -/
inductive Val : Value → Bytes → Bytes → Bytes → Prop where
  | null {g r : Bytes} : Val .null (bytes "null") g r
  | true_ {g r : Bytes} : Val (.bool true) (bytes "true") g r
  | false_ {g r : Bytes} : Val (.bool false) (bytes "false") g r
  | num {t g r : Bytes} {d : Decimal} (ht : DecimalText t) (hd : dec t = some d) (he : EndsNumber g r) :
      Val (.num d) t g r
  | dur {t g1 sp g r : Bytes} {d : Decimal} {u : TimeUnit} (ht : DecimalText t) (hd : dec t = some d) (h1 : Gap g1)
      (hs : (sp, u) ∈ shortUnits) (he : NoHead Letter (g ++ r)) : Val (.dur d u) (t ++ (g1 ++ sp)) g r
  | quoted {s t g r : Bytes} (h : QuotedText s t) : Val (.str s) t g r
  | bare {s g r : Bytes} (h : BareText s) (he : StrStop (g ++ r)) : Val (.str s) s g r
  | ref {p : List Bytes} {o : Bool} {g1 g2 g r : Bytes} (hp : PathText (joinDot p)) (h1 : Gap g1) (h2 : Gap g2) :
      Val (.ref none (joinDot p) o)
        (bytes "${" ++ (g1 ++ ((if o then bytes "?" else []) ++ (joinDot p ++ (g2 ++ bytes "}"))))) g r
  | arr {vs : List Value} {g1 t g r : Bytes} (h1 : Gap g1) (h : Elems vs t (byte ']' :: (g ++ r))) :
      Val (.arr vs) (byte '[' :: (g1 ++ (t ++ [byte ']']))) g r
  | obj {ps es : Entries} {g1 t g r : Bytes} (h1 : Gap g1) (h : Members true ps t (byte '}' :: (g ++ r)))
      (hk : Gathered ps es) (hg : Guarded (g ++ r)) : Val (.obj es) (byte '{' :: (g1 ++ (t ++ [byte '}']))) g r
/-- The elements of an array in front of `x`: commas between them, and perhaps one behind the last. -/
inductive Elems : List Value → Bytes → Bytes → Prop where
  | nil {x : Bytes} : Elems [] [] x
  | one {v : Value} {t g x : Bytes} (hg : Gap g) (h : Val v t g x) : Elems [v] (t ++ g) x
  | cons {v : Value} {vs : List Value} {t g g1 t' x : Bytes} (hg : Gap g) (h1 : Gap g1)
      (h : Val v t g (byte ',' :: (g1 ++ (t' ++ x)))) (hs : Elems vs t' x) :
      Elems (v :: vs) (t ++ (g ++ byte ',' :: (g1 ++ t'))) x
/-- The entries of an object in front of `x`. -/
inductive Members : Bool → Entries → Bytes → Bytes → Prop where
  | nil {c : Bool} {x : Bytes} : Members c [] [] x
  | assign {c : Bool} {k kt g1 g2 t g s t' x : Bytes} {b : UInt8} {v : Value} {es : Entries} (hk : KeyText k kt)
      (h1 : Gap g1) (hb : b = byte '=' ∨ b = byte ':') (h2 : Gap g2) (hg : Gap g) (hs : Sep c s)
      (h : Val v t g (s ++ (t' ++ x))) (hm : Members c es t' x) :
      Members c ((k, v) :: es) (kt ++ (g1 ++ b :: (g2 ++ (t ++ (g ++ (s ++ t')))))) x
  | block {c : Bool} {k kt g1 t g s t' x : Bytes} {v : Value} {es : Entries} (hk : KeyText k kt)
      (h1 : Gap g1) (hv : IsObj v ∨ IsArr v) (hg : Gap g) (hs : Sep c s)
      (h : Val v t g (s ++ (t' ++ x))) (hm : Members c es t' x) :
      Members c ((k, v) :: es) (kt ++ (g1 ++ (t ++ (g ++ (s ++ t'))))) x
end

/-- Top level values one after the other. -/
inductive Items : List Value → Bytes → Prop where
  | nil : Items [] []
  | cons {v : Value} {vs : List Value} {t g t' : Bytes} (hv : IsObj v ∨ IsArr v) (hg : Gap g) (h : Val dec v t g t')
      (hs : Items vs t') : Items (v :: vs) (t ++ (g ++ t'))

/-- The texts of documents: settings, or objects and arrays. -/
inductive Doc : List Value → Bytes → Prop where
  | settings {es : Entries} {g t : Bytes} (hg : Gap g) (hne : es ≠ []) (hk : (keys es).Nodup)
      (h : Members dec false es t []) : Doc [.obj es] (g ++ t)
  | items {vs : List Value} {g t : Bytes} (hg : Gap g) (h : Items dec vs t) (hb : ∀ x, t = byte '{' :: x → Guarded x) :
      Doc vs (g ++ t)

end OniComb.Hocon.Spec.Layout
