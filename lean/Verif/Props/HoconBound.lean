import Verif.Lemmas.HoconPoly
import Verif.Lemmas.HoconDoc

/-!
# C149: documents in canonical layout take polynomially many steps

The documents of `Spec/HoconText`: objects that are opened and closed on lines of their own. No brace has to be read again as a string.
-/

set_option linter.unusedSectionVars false

namespace OniComb.Hocon.Counting
open OniComb OniComb.Hocon OniComb.Hocon.Spec
open OniComb.Uri (Bytes byte bytes fromUtf8 parseUInt mapUnwrap text)
open OniComb.Uri.Counting (C coll att mapped tried txt lit among run_or run_and run_left run_right run_opt run_prim run_seq run_unary
  run_from run_many0 run_many1 run_manyNM run_count run_coll run_named run_att run_mapped run_tried run_txt run_lit run_among)
open OniComb.Counted (prim unary)
open OniComb.Steps (left left_advance fits_advance)

variable {A B D : Type}

/-! ### At most so many steps -/

/-- On a text that begins with `r`, wherever, the parser takes at most `m` steps. -/
def AtMost (m : Nat) (c : C A) (r : Bytes) : Prop := ∀ pre : Bytes, c.steps ⟨pre ++ r, pre.length⟩ ≤ m

/-- The parser takes at most `W` steps wherever at most `L` elements are left, and does not consume more than there is. -/
structure Leaf (W L : Nat) (c : C A) : Prop where
  le : ∀ s : State UInt8, s.offset ≤ s.input.length → left s ≤ L → c.steps s ≤ W
  fits : ∀ (s : State UInt8) v n, s.offset ≤ s.input.length → c.run s = .success v n → n ≤ left s

theorem left_at (pre r : Bytes) : left (⟨pre ++ r, pre.length⟩ : State UInt8) = r.length := by
  simp [left]

section
variable {p : C A} {q : C B} {t rest r : Bytes} {v : A} {a b W L : Nat}

theorem Leaf.at (h : Leaf W L p) (hr : r.length ≤ L) : AtMost W p r := fun pre =>
  h.le _ (by simp) (by rw [left_at]; exact hr)

theorem AtMost.mono (h : AtMost a p r) (hb : a ≤ b) : AtMost b p r := fun pre => Nat.le_trans (h pre) hb

theorem AtMost.both {c : C D} (hc : Steps.Both c p q) (h : AtMost a p (t ++ rest)) (ht : Takes p.run t v rest) (h' : AtMost b q rest) :
    AtMost (a + b) c (t ++ rest) := fun pre => by
  rw [hc.steps, ht pre]
  show p.steps _ + q.steps _ ≤ _
  rw [behind]
  exact Nat.add_le_add (h pre) (h' _)

theorem AtMost.both_refused {c : C D} (hc : Steps.Both c p q) (h : AtMost a p r) (hr : Refuses p.run r) : AtMost a c r := fun pre => by
  obtain ⟨e, he⟩ := hr pre
  rw [hc.steps, he]
  exact h pre

/-- What follows is bounded wherever it begins. -/
theorem AtMost.both_leaf {c : C D} (hc : Steps.Both c p q) (h : AtMost a p r)
    (hf : ∀ pre v n, p.run ⟨pre ++ r, pre.length⟩ = .success v n → n ≤ r.length) (hq : Leaf W L q) (hr : r.length ≤ L) :
    AtMost (a + W) c r := fun pre => by
  rw [hc.steps]
  refine Nat.add_le_add (h pre) ?_
  cases hp : p.run ⟨pre ++ r, pre.length⟩ with
  | success v n =>
    have h1 : n ≤ left (⟨pre ++ r, pre.length⟩ : State UInt8) := by rw [left_at]; exact hf pre v n hp
    have h2 := left_advance h1
    rw [left_at] at h2
    exact hq.le _ (fits_advance (by simp) h1) (by omega)
  | _ => exact Nat.zero_le _

theorem AtMost.or {q : C A} (h : AtMost a p r) (h' : AtMost b q r) : AtMost (a + b) (.or p q) r := fun pre => by
  show p.steps _ + (p.run _).onUncommitted _ ≤ _
  refine Nat.add_le_add (h pre) ?_
  cases p.run ⟨pre ++ r, pre.length⟩ with
  | failure e st => cases st with
    | uncommitted => exact h' pre
    | committed => exact Nat.zero_le _
  | _ => exact Nat.zero_le _

theorem AtMost.or_taken {q : C A} (h : AtMost a p (t ++ rest)) (ht : Takes p.run t v rest) : AtMost a (.or p q) (t ++ rest) := fun pre => by
  show p.steps _ + (p.run _).onUncommitted _ ≤ _
  rw [ht pre]
  exact h pre

theorem AtMost.lazy {f : Unit → C A} (h : AtMost a (f ()) r) : AtMost (1 + a) (.lazy f) r := fun pre => Nat.add_le_add_left (h pre) 1

/-- The turns of the loop behind the first item take at most `m` steps. -/
def SepCost (m : Nat) (p : C A) (q : C B) (r : Bytes) : Prop := ∀ (fuel : Nat) (pre : Bytes) (items : List A) (len : Nat),
  Counted.repSteps p (some q) .unbounded fuel ⟨⟨pre ++ r, pre.length⟩, items, len⟩ ≤ m

theorem SepCost.stop (h : AtMost a q r) (hr : Refuses q.run r) : SepCost a p q r := by
  intro fuel pre items len
  cases fuel with
  | zero => exact Nat.zero_le _
  | succ fuel =>
    obtain ⟨e, he⟩ := hr pre
    have hb : boundReached .unbounded items.length = false := rfl
    simp only [Counted.repSteps, hb, Bool.false_eq_true, if_false, he, Res.onSuccess]
    exact h pre

theorem SepCost.last {x : B} (h : AtMost a q (t ++ rest)) (ht : Takes q.run t x rest) (h' : AtMost b p rest) (hr : Refuses p.run rest) :
    SepCost (a + b) p q (t ++ rest) := by
  intro fuel pre items len
  cases fuel with
  | zero => exact Nat.zero_le _
  | succ fuel =>
    have hb : boundReached .unbounded items.length = false := rfl
    simp only [Counted.repSteps, hb, Bool.false_eq_true, if_false, ht pre, Res.onSuccess, behind]
    obtain ⟨e, he⟩ := hr (pre ++ t)
    simp only [Counted.itemSteps, he, Res.onSuccess]
    exact Nat.add_le_add (h pre) (h' _)

theorem SepCost.cons {x : B} {s : Bytes} {m : Nat} (h : AtMost a q (s ++ (t ++ rest))) (hs : Takes q.run s x (t ++ rest))
    (h' : AtMost b p (t ++ rest)) (ht : Takes p.run t v rest) (hm : SepCost m p q rest) : SepCost (a + b + m) p q (s ++ (t ++ rest)) := by
  intro fuel pre items len
  cases fuel with
  | zero => exact Nat.zero_le _
  | succ fuel =>
    have hb : boundReached .unbounded items.length = false := rfl
    simp only [Counted.repSteps, hb, Bool.false_eq_true, if_false, hs pre, Res.onSuccess, behind]
    simp only [Counted.itemSteps, ht (pre ++ s), Res.onSuccess]
    rw [behind, Nat.add_assoc a]
    exact Nat.add_le_add (h pre) (Nat.add_le_add (h' _) (hm _ _ _ _))

theorem AtMost.many0Sep {m : Nat} (h : AtMost a p (t ++ rest)) (ht : Takes p.run t v rest) (hm : SepCost m p q rest) :
    AtMost (a + m) (.many0Sep p q) (t ++ rest) := fun pre => by
  show p.steps _ + (p.run _).onSuccess _ ≤ _
  rw [ht pre]
  show p.steps _ + Counted.repSteps p (some q) .unbounded (repFuel .unbounded _) ⟨State.advanceBy _ _, _, _⟩ ≤ _
  rw [behind]
  exact Nat.add_le_add (h pre) (hm _ _ _ _)

theorem AtMost.many0Sep_none (h : AtMost a p r) (hr : Refuses p.run r) : AtMost a (.many0Sep p q) r := fun pre => by
  obtain ⟨e, he⟩ := hr pre
  show p.steps _ + (p.run _).onSuccess _ ≤ _
  rw [he]
  exact h pre

/-- The turns of the loop without separators. -/
def LoopCost (m : Nat) (p : C A) (r : Bytes) : Prop := ∀ (fuel : Nat) (pre : Bytes) (items : List A) (len : Nat),
  Counted.loopSteps p fuel ⟨⟨pre ++ r, pre.length⟩, items, len⟩ ≤ m

theorem LoopCost.stop (h : AtMost a p r) (hr : Refuses p.run r) : LoopCost a p r := by
  intro fuel pre items len
  cases fuel with
  | zero => exact Nat.zero_le _
  | succ fuel =>
    obtain ⟨e, he⟩ := hr pre
    simp only [Counted.loopSteps, he, Res.onSuccess]
    exact h pre

theorem LoopCost.cons {m : Nat} (h : AtMost a p (t ++ rest)) (ht : Takes p.run t v rest) (hm : LoopCost m p rest) :
    LoopCost (a + m) p (t ++ rest) := by
  intro fuel pre items len
  cases fuel with
  | zero => exact Nat.zero_le _
  | succ fuel =>
    simp only [Counted.loopSteps, ht pre, Res.onSuccess, behind]
    exact Nat.add_le_add (h pre) (hm _ _ _ _)

theorem AtMost.many1 {m : Nat} (h : AtMost a p (t ++ rest)) (ht : Takes p.run t v rest) (hm : LoopCost m p rest) :
    AtMost (a + m) (.many1 p) (t ++ rest) := fun pre => by
  show p.steps _ + (p.run _).onSuccess _ ≤ _
  rw [ht pre]
  show p.steps _ + Counted.loopSteps p (repFuel .unbounded _) ⟨State.advanceBy _ _, _, _⟩ ≤ _
  rw [behind]
  exact Nat.add_le_add (h pre) (hm _ _ _ _)

end

theorem or_left {p q : Parser UInt8 A} {t rest : Bytes} {v : A} (h : Takes p t v rest) : Takes (OniComb.or p q) t v rest := fun pre => by
  unfold OniComb.or
  rw [h pre]

theorem or_right {p q : Parser UInt8 A} {t rest : Bytes} {v : A} (h : Refuses p (t ++ rest)) (h' : Takes q t v rest) :
    Takes (OniComb.or p q) t v rest := fun pre => by
  obtain ⟨e, he⟩ := h pre
  unfold OniComb.or
  rw [he]
  exact h' pre

/-! ### The parsers that do not refer to themselves -/

/-- All of them take at most `W` steps where at most `L` bytes are left. -/
structure Leaves (S : Std) (W L : Nat) : Prop where
  pos : 1 ≤ W
  soc : Leaf W L spaceOrComment
  openArr : Leaf W L (spaced (lit '['))
  closeArr : Leaf W L (spaced (lit ']'))
  openObj : Leaf W L (spaced (lit '{'))
  closeObj : Leaf W L (spaced (lit '}'))
  comma : Leaf W L (spaced (lit ','))
  optComma : Leaf W L (.opt (spaced (lit ',')))
  kv : Leaf W L kv
  key : Leaf W L key
  ref : Leaf W L referenceConfigValue
  simple : Leaf W L (simpleConfigValue S)
  enum : Leaf W L enumerationConfigValue

theorem Poly.leaf {d k K L : Nat} {c : C A} (h : Poly d k c) (hk : k ≤ K) : Leaf (K * (L + 1) ^ d) L c where
  le := fun s hs hl => Nat.le_trans (h.le s hs) (Nat.mul_le_mul hk (pow_mono hl))
  fits := fun _ _ _ hs hr => h.fits hs hr

theorem leaves : ∃ K, ∀ (S : Std) (L : Nat), Leaves S (K * (L + 1) ^ 3) L := by
  obtain ⟨k1, h1⟩ := poly_soc
  obtain ⟨k2, h2⟩ := poly_spaced '['
  obtain ⟨k3, h3⟩ := poly_spaced ']'
  obtain ⟨k4, h4⟩ := poly_spaced '{'
  obtain ⟨k5, h5⟩ := poly_spaced '}'
  obtain ⟨k6, h6⟩ := poly_spaced ','
  obtain ⟨k7, h7⟩ := poly_comma
  obtain ⟨k8, h8⟩ := poly_kv
  obtain ⟨k9, h9⟩ := poly_key
  obtain ⟨k10, h10⟩ := poly_ref
  obtain ⟨k11, h11⟩ := poly_simple
  obtain ⟨k12, h12⟩ := poly_enum
  refine ⟨1 + k1 + k2 + k3 + k4 + k5 + k6 + k7 + k8 + k9 + k10 + k11 + k12, fun S L => ⟨?_, ?_, ?_, ?_, ?_, ?_, ?_, ?_, ?_, ?_, ?_, ?_, ?_⟩⟩
  · have : 1 ≤ (L + 1) ^ 3 := Nat.one_le_pow _ _ (by omega)
    exact Nat.le_trans this (Nat.le_mul_of_pos_left _ (by omega))
  · exact h1.leaf (by omega)
  · exact h2.leaf (by omega)
  · exact h3.leaf (by omega)
  · exact h4.leaf (by omega)
  · exact h5.leaf (by omega)
  · exact h6.leaf (by omega)
  · exact h7.leaf (by omega)
  · exact h8.leaf (by omega)
  · exact h9.leaf (by omega)
  · exact h10.leaf (by omega)
  · exact (h11 S).leaf (by omega)
  · exact h12.leaf (by omega)

/-! ### Values -/

section
variable {S : Std} {W L : Nat} {cv : C Value} {prop : C (Bytes × Value)} {r : Bytes}

theorem refuses_lit {c : Char} (hq : Quiet r) (hr : NoHead (fun b => b = byte c) r) : Refuses (spaced (lit c)).run r := by
  rw [spaced_run, run_lit]
  exact refuses_of (p := Hocon.spaced (elm (byte c))) (fail_spaced' hq (fail_elm.2 ⟨rfl, fun r' h => hr _ _ h rfl⟩))

theorem takes_lit {c : Char} {g : Bytes} (hg : Gap g) (hc : ∀ x, Quiet (byte c :: x)) (hq : Quiet r) :
    Takes (spaced (lit c)).run (byte c :: g) (byte c) r := by
  rw [spaced_run, run_lit]
  exact takes_of (p := Hocon.spaced (elm (byte c))) (eats_spaced' (t := [byte c]) (b2 := g) hg (hc _) hq (eats_elm.2 ⟨rfl, rfl⟩))

theorem array_refused (hW : Leaves S W L) (hl : r.length ≤ L) (hq : Quiet r) (hr : NoHead (fun b => b = byte '[') r) :
    AtMost W (att (arrayConfigValue cv)) r := by
  have h : AtMost W (.surround (spaced (lit '[')) (.many0Sep cv (spaced (lit ','))) (spaced (lit ']'))) r :=
    AtMost.both_refused (Steps.both_skipLeft _ _) (hW.openArr.at hl) (refuses_lit hq hr)
  exact h

theorem object_refused (hW : Leaves S W L) (hl : r.length ≤ L) (hq : Quiet r) (hr : NoHead (fun b => b = byte '{') r) :
    AtMost W (att (objectConfigValue prop)) r := by
  have h : AtMost W (.surround (spaced (lit '{')) (.many0Sep prop (.opt (spaced (lit ',')))) (spaced (lit '}'))) r :=
    AtMost.both_refused (Steps.both_skipLeft _ _) (hW.openObj.at hl) (refuses_lit hq hr)
  exact h

theorem no_array (hq : Quiet r) (hr : NoHead (fun b => b = byte '[') r) (pre : Bytes) (v : Value) (n : Nat) :
    (att (arrayConfigValue cv)).run ⟨pre ++ r, pre.length⟩ ≠ .success v n := fun h => by
  obtain ⟨v', h, -⟩ := map_success (attempt_success h)
  obtain ⟨v1, n1, -, -, h1, -, -⟩ := (Steps.both_skipLeft (spaced (lit '[')) _).ok _ _ _ h
  obtain ⟨e, he⟩ := refuses_lit hq hr pre
  rw [he] at h1
  cases h1

theorem no_object (hq : Quiet r) (hr : NoHead (fun b => b = byte '{') r) (pre : Bytes) (v : Value) (n : Nat) :
    (att (objectConfigValue prop)).run ⟨pre ++ r, pre.length⟩ ≠ .success v n := fun h => by
  obtain ⟨v', h, -⟩ := map_success (attempt_success h)
  obtain ⟨v'', h, -⟩ := map_success h
  obtain ⟨v1, n1, -, -, h1, -, -⟩ := (Steps.both_skipLeft (spaced (lit '{')) _).ok _ _ _ h
  obtain ⟨e, he⟩ := refuses_lit hq hr pre
  rw [he] at h1
  cases h1

/-- Where neither an array nor an object begins. -/
theorem cv_flat (hW : Leaves S W L) (hl : r.length ≤ L) (hq : Quiet r) (hr : NoHead (fun b => b ∈ bytes "[{") r) :
    AtMost (7 * W) (configValue S cv prop) r := by
  have h1 := array_refused (cv := cv) hW hl hq (hr.mono fun b hb => by rw [hb]; decide)
  have h2 := object_refused (prop := prop) hW hl hq (hr.mono fun b hb => by rw [hb]; decide)
  have h3 : AtMost W (att referenceConfigValue) r := hW.ref.at hl
  have h4 : AtMost W (att (simpleConfigValue S)) r := hW.simple.at hl
  have h5 := ((((h1.or h2).or h3).or h4).or (hW.enum.at hl))
  have h6 : AtMost (W + W + W + W + W + W) (.skipRight (.or (.or (.or (.or (att (arrayConfigValue cv)) (att (objectConfigValue prop)))
      (att referenceConfigValue)) (att (simpleConfigValue S))) enumerationConfigValue) spaceOrComment) r := by
    refine h5.both_leaf (Steps.both_skipRight _ _) ?_ hW.soc hl
    intro pre v n h
    have hs : (⟨pre ++ r, pre.length⟩ : State UInt8).offset ≤ (⟨pre ++ r, pre.length⟩ : State UInt8).input.length := by simp
    rw [← left_at pre r]
    rcases or_success h with h | h
    · rcases or_success h with h | h
      · rcases or_success h with h | h
        · rcases or_success h with h | h
          · exact absurd h (no_array hq (hr.mono fun b hb => by rw [hb]; decide) pre v n)
          · exact absurd h (no_object hq (hr.mono fun b hb => by rw [hb]; decide) pre v n)
        · exact hW.ref.fits _ _ _ hs (attempt_success h)
      · exact hW.simple.fits _ _ _ hs (attempt_success h)
    · exact hW.enum.fits _ _ _ hs h
  have h7 := AtMost.both (t := []) (Steps.both_skipLeft spaceOrComment _) (hW.soc.at hl) (soc_takes hq) h6
  exact AtMost.mono h7 (by omega)

/-- An array. -/
theorem cv_array {t rest : Bytes} {v : Value} {a : Nat} (hW : Leaves S W L) (hl : (t ++ rest).length ≤ L) (hq : Quiet (t ++ rest))
    (h : AtMost a (arrayConfigValue cv) (t ++ rest)) (ht : Takes (att (arrayConfigValue cv)).run t v rest) :
    AtMost (a + 2 * W) (configValue S cv prop) (t ++ rest) := by
  have h1 : AtMost a (att (arrayConfigValue cv)) (t ++ rest) := h
  have h2 := (((h1.or_taken (q := att (objectConfigValue prop)) ht).or_taken (q := att referenceConfigValue) (or_left ht)).or_taken
    (q := att (simpleConfigValue S)) (or_left (or_left ht))).or_taken (q := enumerationConfigValue) (or_left (or_left (or_left ht)))
  have h3 := AtMost.both (Steps.both_skipRight _ spaceOrComment) h2 (or_left (or_left (or_left (or_left ht))))
    (hW.soc.at (r := rest) (by simp at hl; omega))
  have h4 := AtMost.both (t := []) (Steps.both_skipLeft spaceOrComment _) (hW.soc.at hl) (soc_takes hq) h3
  exact AtMost.mono h4 (by omega)

/-- An object. -/
theorem cv_object {t rest : Bytes} {v : Value} {a : Nat} (hW : Leaves S W L) (hl : (t ++ rest).length ≤ L) (hq : Quiet (t ++ rest))
    (hr : NoHead (fun b => b = byte '[') (t ++ rest)) (ha : Refuses (att (arrayConfigValue cv)).run (t ++ rest))
    (h : AtMost a (objectConfigValue prop) (t ++ rest)) (ht : Takes (att (objectConfigValue prop)).run t v rest) :
    AtMost (a + 3 * W) (configValue S cv prop) (t ++ rest) := by
  have h0 : AtMost a (att (objectConfigValue prop)) (t ++ rest) := h
  have h1 := (array_refused (cv := cv) hW hl hq hr).or h0
  have ht := or_right ha ht
  have h2 := ((h1.or_taken (q := att referenceConfigValue) ht).or_taken
    (q := att (simpleConfigValue S)) (or_left ht)).or_taken (q := enumerationConfigValue) (or_left (or_left ht))
  have h3 := AtMost.both (Steps.both_skipRight _ spaceOrComment) h2 (or_left (or_left (or_left ht)))
    (hW.soc.at (r := rest) (by simp at hl; omega))
  have h4 := AtMost.both (t := []) (Steps.both_skipLeft spaceOrComment _) (hW.soc.at hl) (soc_takes hq) h3
  exact AtMost.mono h4 (by omega)

/-- Elements that are read in front of `,` and `]`. -/
def ElementCost (W L : Nat) (cv : C Value) (dec : Bytes → Option Decimal) (v : Lit) : Prop :=
  (∀ r, Quiet (v.text ++ r)) ∧ ∀ r b, b = byte ',' ∨ b = byte ']' → (v.text ++ b :: r).length ≤ L →
    AtMost (12 * (v.text.length * W) + 1) cv (v.text ++ b :: r) ∧ Takes cv.run v.text (v.value dec) (b :: r)

theorem elements_cost {dec : Bytes → Option Decimal} (hW : Leaves S W L) (vs : List Lit) (h : ∀ v ∈ vs, ElementCost W L cv dec v)
    (hl : (textList vs ++ byte ']' :: r).length ≤ L) (h0 : AtMost (8 * W) cv (byte ']' :: r)) (h0' : Refuses cv.run (byte ']' :: r)) :
    AtMost (12 * ((textList vs).length * W) + 8 * W) (.many0Sep cv (spaced (lit ','))) (textList vs ++ byte ']' :: r) := by
  have hpos := hW.pos
  cases vs with
  | nil =>
    rw [textList]
    exact (AtMost.many0Sep_none h0 h0').mono (Nat.le_add_left _ _)
  | cons v vs =>
    have key : ∀ vs : List Lit, (∀ v ∈ vs, ElementCost W L cv dec v) →
        ((if vs.isEmpty then [] else byte ',' :: textList vs) ++ byte ']' :: r).length ≤ L →
        SepCost (12 * ((if vs.isEmpty then [] else byte ',' :: textList vs).length * W) + W) cv (spaced (lit ','))
          ((if vs.isEmpty then [] else byte ',' :: textList vs) ++ byte ']' :: r) := by
      intro vs h hl
      induction vs with
      | nil =>
        simp only [List.isEmpty_nil, if_true, List.nil_append, List.length_nil, Nat.zero_mul, Nat.mul_zero, Nat.zero_add] at hl ⊢
        exact .stop (hW.comma.at hl) (refuses_lit (noHead_cons.2 (by decide)) (noHead_cons.2 (by decide)))
      | cons v vs ih =>
        have hv := h v (by simp)
        simp only [List.isEmpty_cons, Bool.false_eq_true, if_false, textList] at hl ⊢
        generalize hx : (if vs.isEmpty then [] else byte ',' :: textList vs) = x at hl ih ⊢
        have e : byte ',' :: (v.text ++ x) ++ byte ']' :: r = [byte ','] ++ (v.text ++ (x ++ byte ']' :: r)) := by simp
        have hl' : (v.text ++ (x ++ byte ']' :: r)).length ≤ L := by rw [e] at hl; simp at hl ⊢; omega
        have ih := ih (fun y hy => h y (by simp [hy])) (by simp at hl' ⊢; omega)
        have hc : ∃ b y, (b = byte ',' ∨ b = byte ']') ∧ x ++ byte ']' :: r = b :: y := by
          cases vs with
          | nil => rw [← hx]; exact ⟨_, _, .inr rfl, rfl⟩
          | cons w ws => rw [← hx]; exact ⟨_, _, .inl rfl, rfl⟩
        obtain ⟨b, y, hb, hy⟩ := hc
        have h1 := hv.2 y b hb (by rw [← hy]; exact hl')
        rw [← hy] at h1
        rw [e]
        have h2 := SepCost.cons (hW.comma.at (by rw [← e]; exact hl))
          (takes_lit (c := ',') gap_nil (fun x => noHead_cons.2 (by decide)) (hv.1 _)) h1.1 h1.2 ih
        intro fuel pre items len
        refine Nat.le_trans (h2 fuel pre items len) ?_
        simp only [List.length_cons, List.length_append, Nat.add_mul, Nat.mul_add]
        omega
    have hv := h v (by simp)
    rw [textList] at hl ⊢
    have hs := key vs (fun y hy => h y (by simp [hy]))
    have hc : ∃ b y, (b = byte ',' ∨ b = byte ']') ∧ (if vs.isEmpty then [] else byte ',' :: textList vs) ++ byte ']' :: r = b :: y := by
      cases vs with
      | nil => exact ⟨_, _, .inr rfl, rfl⟩
      | cons w ws => exact ⟨_, _, .inl rfl, rfl⟩
    obtain ⟨b, y, hb, hy⟩ := hc
    rw [List.append_assoc] at hl ⊢
    have hs := hs (by simp only [List.length_append] at hl ⊢; omega)
    rw [hy] at hl hs ⊢
    have h1 := hv.2 y b hb hl
    refine (AtMost.many0Sep h1.1 h1.2 hs).mono ?_
    simp only [List.length_append, Nat.add_mul, Nat.mul_add]
    omega

/-- Entries that are read in front of `,`, line end and next key, and of line end and `}`. -/
def EntryCost (W L : Nat) (P : C (Bytes × Value)) (dec : Bytes → Option Decimal) (e : Bytes × Lit) : Prop :=
  PathText e.1 ∧ (∀ k r, PathText k → (textEntry e ++ (bytes ",\n" ++ (k ++ r))).length ≤ L →
    AtMost (12 * ((textEntry e).length * W)) P (textEntry e ++ (bytes ",\n" ++ (k ++ r))) ∧
    Takes P.run (textEntry e) (valueEntry dec e) (bytes ",\n" ++ (k ++ r))) ∧
  ∀ r, (textEntry e ++ bytes "\n" ++ byte '}' :: r).length ≤ L →
    AtMost (12 * ((textEntry e).length * W)) P (textEntry e ++ bytes "\n" ++ byte '}' :: r) ∧
    Takes P.run (textEntry e ++ bytes "\n") (valueEntry dec e) (byte '}' :: r)

theorem takes_comma {k r : Bytes} (hk : PathText k) :
    Takes (Counted.opt (spaced (lit ','))).run (bytes ",\n") (some (byte ',')) (k ++ r) := by
  rw [run_opt, spaced_run, run_lit]
  refine takes_of (p := opt (Hocon.spaced (elm (byte ',')))) (eats_opt.2 (.inl ⟨byte ',', rfl, ?_⟩))
  exact eats_spaced' (t := [byte ',']) (b2 := [byte '\n']) gap_line (noHead_cons.2 (by decide)) (pathText_quiet hk)
    (eats_elm.2 ⟨rfl, rfl⟩)

theorem takes_noComma : Takes (Counted.opt (spaced (lit ','))).run [] none (byte '}' :: r) := by
  rw [run_opt, spaced_run, run_lit]
  exact takes_of (p := opt (Hocon.spaced (elm (byte ',')))) (eats_opt.2 (.inr ⟨rfl, rfl, .uncommitted,
    fail_spaced' (noHead_cons.2 (by decide)) (fail_elm.2 ⟨rfl, by rintro r' ⟨⟩⟩)⟩))

theorem entries_cost {dec : Bytes → Option Decimal} {x : Bytes} (hW : Leaves S W L) (h0 : AtMost (5 * W) prop (byte '}' :: x))
    (h0' : Refuses prop.run (byte '}' :: x)) (es : List (Bytes × Lit)) :
    ∀ e, (∀ e' ∈ e :: es, EntryCost W L prop dec e') → (textEntries (e :: es) ++ byte '}' :: x).length ≤ L →
      ∃ t1 t2 a m, textEntries (e :: es) = t1 ++ t2 ∧ Takes prop.run t1 (valueEntry dec e) (t2 ++ (byte '}' :: x)) ∧
      AtMost a prop (t1 ++ (t2 ++ (byte '}' :: x))) ∧ SepCost m prop (Counted.opt (spaced (lit ','))) (t2 ++ (byte '}' :: x)) ∧
      a + m ≤ 12 * ((textEntries (e :: es)).length * W) + 6 * W := by
  have hpos := hW.pos
  induction es with
  | nil =>
    intro e h hl
    have e1 : textEntries [e] = textEntry e ++ bytes "\n" := by simp [textEntries]
    rw [e1] at hl
    have h1 := (h e (by simp)).2.2 x hl
    refine ⟨textEntry e ++ bytes "\n", [], _, W + 5 * W, by rw [e1, List.append_nil], h1.2, h1.1, ?_, ?_⟩
    · exact SepCost.last (t := []) (hW.optComma.at (by simp only [List.length_append] at hl ⊢; simp; simp at hl; omega)) takes_noComma h0 h0'
    · rw [e1]
      simp only [List.length_append, Nat.add_mul, Nat.mul_add]
      omega
  | cons e' es ih =>
    intro e h hl
    have e1 : textEntries (e :: e' :: es) = textEntry e ++ (bytes ",\n" ++ textEntries (e' :: es)) := by
      rw [textEntries]; simp
    have hl' := hl
    rw [e1] at hl'
    simp only [List.length_append] at hl'
    obtain ⟨t1, t2, a, m, h1, h2, h3, h4, h5⟩ := ih e' (fun y hy => h y (List.mem_cons_of_mem _ hy)) (by rw [List.length_append]; omega)
    have hk : ∃ y, t1 ++ t2 = e'.1 ++ y := by
      rw [← h1, textEntries]
      obtain ⟨k, v⟩ := e'
      simp only [textEntry]
      exact ⟨_, by rw [List.append_assoc]⟩
    obtain ⟨y, hy⟩ := hk
    have hke : PathText e'.1 := (h e' (by simp)).1
    have e2 : bytes ",\n" ++ (t1 ++ t2) ++ byte '}' :: x = bytes ",\n" ++ (e'.1 ++ (y ++ byte '}' :: x)) := by
      rw [hy, List.append_assoc, List.append_assoc]
    have e3 : bytes ",\n" ++ (t1 ++ t2) ++ byte '}' :: x = bytes ",\n" ++ (t1 ++ (t2 ++ byte '}' :: x)) := by
      rw [List.append_assoc, List.append_assoc]
    have hlen : (textEntry e ++ (bytes ",\n" ++ (e'.1 ++ (y ++ byte '}' :: x)))).length ≤ L := by
      rw [← e2, ← h1]
      simp only [List.length_append]
      omega
    have h6 := (h e (by simp)).2.1 e'.1 (y ++ byte '}' :: x) hke hlen
    rw [← e2] at h6
    refine ⟨textEntry e, bytes ",\n" ++ (t1 ++ t2), _, W + a + m, by rw [e1, h1], h6.2, h6.1, ?_, ?_⟩
    · rw [e3]
      refine SepCost.cons (x := some (byte ',')) (hW.optComma.at ?_) ?_ h3 h2 h4
      · rw [← e3, e2]
        rw [List.length_append] at hlen
        omega
      · have e4 : t1 ++ (t2 ++ byte '}' :: x) = e'.1 ++ (y ++ byte '}' :: x) := by rw [← List.append_assoc, hy, List.append_assoc]
        rw [e4]
        exact takes_comma hke
    · rw [e1]
      have e5 : (bytes ",\n").length = 2 := rfl
      simp only [List.length_append, Nat.add_mul, Nat.mul_add, e5]
      omega

/-! ### Properties -/

theorem takes_kv : Takes kv.run [byte '='] () r := by
  rw [kv_run]
  refine takes_of (p := Hocon.kv) ?_
  unfold Hocon.kv
  exact eats_discard.2 ⟨byte '=', (one_of _).eats.2 ⟨rfl, by decide⟩⟩

theorem takes_key {k : Bytes} (hk : PathText k) : Takes key.run k k (byte '=' :: r) := by
  rw [key_run]
  have hkey := eats_key (b1 := []) (b2 := []) (rest := byte '=' :: r) hk gap_nil
    blanks_nil (noHead_cons.2 (by decide)) (noHead_cons.2 (by unfold PathByte; decide))
  rw [List.nil_append, List.append_nil] at hkey
  exact takes_of hkey

theorem skipLeft_takes {p : Parser UInt8 A} {q : Parser UInt8 B} {t t' rest : Bytes} {v : A} {w : B} (h : Takes p t v (t' ++ rest))
    (h' : Takes q t' w rest) : Takes (attempt (OniComb.skipLeft p q)) (t ++ t') w rest := fun pre => by
  have h1 := h pre
  have h2 := h' (pre ++ t)
  rw [← behind pre t (t' ++ rest)] at h2
  rw [List.append_assoc]
  simp only [attempt, OniComb.skipLeft, h1, h2, List.length_append]
  rfl

theorem property_cost {k t rest : Bytes} {v : Value} {a : Nat} (hW : Leaves S W L) (hk : PathText k)
    (hl : (k ++ ([byte '='] ++ (t ++ rest))).length ≤ L) (h : AtMost a cv (t ++ rest)) (ht : Takes cv.run t v rest) :
    AtMost (2 * W + a) (property cv prop) (k ++ ([byte '='] ++ (t ++ rest))) := by
  have hl' : ([byte '='] ++ (t ++ rest)).length ≤ L := by rw [List.length_append] at hl; omega
  have h1 : AtMost (W + a) (.skipLeft kv cv) ([byte '='] ++ (t ++ rest)) :=
    AtMost.both (Steps.both_skipLeft _ _) (hW.kv.at hl') takes_kv h
  have h2 : AtMost (W + a) (att (.skipLeft kv cv)) ([byte '='] ++ t ++ rest) := by rw [List.append_assoc]; exact h1
  have h3 : Takes (att (.skipLeft kv cv)).run ([byte '='] ++ t) v rest := skipLeft_takes takes_kv ht
  have h4 := (h2.or_taken (q := att (objectConfigValue prop)) h3).or_taken (q := arrayConfigValue cv) (or_left h3)
  rw [List.append_assoc] at h4
  exact (AtMost.both (Steps.both_andThen key _) (hW.key.at hl) (takes_key hk) h4).mono (by omega)

/-- No property at a closing brace. -/
theorem property_close {x : Bytes} (hW : Leaves S W L) (hl : (byte '}' :: x).length ≤ L) (h : ObjEnd x) :
    AtMost (4 * W) (property cv prop) (byte '}' :: x) := by
  obtain ⟨pre, g, z, hp, rfl, hg, hq, hn⟩ := h
  have hkey : Eats Hocon.key ((byte '}' :: pre) ++ (byte '\n' :: g)) (byte '}' :: pre) z := by
    unfold Hocon.key
    refine eats_spaced' hg (noHead_cons.2 (by decide)) hq
      (.or_right (fail_path (noHead_cons.2 (by decide))) (eats_unquoted (noHead_cons.2 (by decide)) (by simp) ?_ ?_ ?_))
    · rcases hp with rfl | rfl <;> decide
    · rcases hp with rfl | rfl <;> decide
    · exact noHead_cons.2 (by decide)
  have e : byte '}' :: (pre ++ (byte '\n' :: g ++ z)) = ((byte '}' :: pre) ++ (byte '\n' :: g)) ++ z := by simp
  rw [e] at hl ⊢
  have hz : z.length ≤ L := by rw [List.length_append] at hl; omega
  have h1 : Refuses kv.run z := by
    rw [kv_run]
    refine refuses_of (p := Hocon.kv) ?_
    unfold Hocon.kv
    refine fail_discard.2 ((one_of _).fail.2 ⟨rfl, hn.mono fun b hb => ?_⟩)
    exact (by decide : ∀ b ∈ bytes "=:", b ∈ bytes "=:{[") b hb
  have h2 : AtMost W (.skipLeft kv cv) z := AtMost.both_refused (Steps.both_skipLeft _ _) (hW.kv.at hz) h1
  have h3 : AtMost W (att (.skipLeft kv cv)) z := h2
  have h4 := object_refused (prop := prop) hW hz hq (hn.mono fun b hb => by rw [hb]; decide)
  have h5 : AtMost W (arrayConfigValue cv) z := array_refused (cv := cv) hW hz hq (hn.mono fun b hb => by rw [hb]; decide)
  have h6 : Takes key.run ((byte '}' :: pre) ++ (byte '\n' :: g)) (byte '}' :: pre) z := by
    rw [key_run]
    exact takes_of hkey
  exact (AtMost.both (Steps.both_andThen key _) (hW.key.at hl) h6 ((h3.or h4).or h5)).mono (by omega)

/-- No property at the end. -/
theorem property_end (hW : Leaves S W L) : AtMost W (property cv prop) [] := by
  refine AtMost.both_refused (Steps.both_andThen key _) (hW.key.at (Nat.zero_le _)) ?_
  rw [key_run]
  refine refuses_of (p := Hocon.key) ?_
  unfold Hocon.key
  exact fail_spaced' noHead_nil (.or (fail_path noHead_nil) (fail_string noHead_nil noHead_nil))

/-! ### Literals -/

theorem takes_cv (S : Std) {n : Nat} {v : Lit} {b2 rest : Bytes} (hn : litDepth v ≤ n) (hv : v.Ok S.parseDecimal) (ha : After v b2 rest) :
    Takes (grammar S n).1.run (v.text ++ b2) (v.value S.parseDecimal) rest := by
  rw [(grammar_run S n).1]
  exact takes_of (eats_lit S n v b2 rest hn hv ha)

theorem after_item {v : Lit} {b : UInt8} {r : Bytes} (hb : b = byte ',' ∨ b = byte ']') (hf : v.flat) : After v [] (b :: r) := by
  refine ⟨gap_nil, ?_, ?_, fun _ => ?_, fun h => absurd hf h⟩
  · rcases hb with rfl | rfl <;> exact noHead_cons.2 (by decide)
  · rcases hb with rfl | rfl <;> exact noHead_cons.2 (by decide)
  · rcases hb with rfl | rfl <;> exact noHead_cons.2 (by unfold UnitStart; decide)

theorem after_comma {v : Lit} {k r : Bytes} (hk : PathText k) : After v [] (bytes ",\n" ++ (k ++ r)) := by
  refine ⟨gap_nil, noHead_cons.2 (by decide), noHead_cons.2 (by decide), fun _ => noHead_cons.2 (by unfold UnitStart; decide), fun _ => ?_⟩
  exact ⟨[byte ','], [], k ++ r, .inr rfl, rfl, gap_line, pathText_quiet hk, pathText_noOpen hk⟩

theorem after_last {v : Lit} {r : Bytes} : After v (bytes "\n") (byte '}' :: r) := by
  refine ⟨gap_line, noHead_cons.2 (by decide), noHead_cons.2 (by decide), fun _ => noHead_cons.2 (by unfold UnitStart; decide), fun _ => ?_⟩
  exact ⟨[], [], byte '}' :: r, .inl rfl, rfl, gap_line, noHead_cons.2 (by decide), noHead_cons.2 (by decide)⟩

theorem text_pos {dec : Bytes → Option Decimal} {v : Lit} (h : v.Ok dec) : 1 ≤ v.text.length := by
  have hq := text_quiet (r := [byte ' ']) h
  cases ht : v.text with
  | nil => rw [ht] at hq; exact absurd (noHead_cons.1 hq) (by decide)
  | cons b x => simp

/-- A literal takes at most twelve times its length the steps that a parser without recursion takes. -/
theorem lit_cost (hW : Leaves S W L) (n : Nat) : ∀ v b2 rest, litDepth v ≤ n → v.Ok S.parseDecimal → After v b2 rest →
    (v.text ++ b2 ++ rest).length ≤ L → AtMost (12 * (v.text.length * W)) (grammar S n).1 (v.text ++ b2 ++ rest) := by
  have hpos := hW.pos
  induction n using Nat.strongRecOn with
  | _ n ih =>
  intro v b2 rest hn hv ha hl
  obtain ⟨m, rfl⟩ : ∃ m, n = m + 1 := by
    refine ⟨n - 1, ?_⟩
    have : 1 ≤ litDepth v := by cases v <;> (simp [litDepth]; try omega)
    omega
  have hq : Quiet (v.text ++ b2 ++ rest) := by rw [List.append_assoc]; exact text_quiet hv
  have hone := Nat.mul_le_mul_right W (text_pos hv)
  have flat : NoHead (fun b => b ∈ bytes "[{") (v.text ++ b2 ++ rest) →
      AtMost (12 * (v.text.length * W)) (grammar S (m + 1)).1 (v.text ++ b2 ++ rest) := fun hr =>
    (cv_flat hW hl hq hr).mono (by omega)
  cases v with
  | null => rw [Lit.text] at flat; exact flat (noHead_cons.2 (by decide))
  | bool b => cases b <;> (rw [Lit.text] at flat; exact flat (noHead_cons.2 (by decide)))
  | num t =>
    rw [Lit.Ok] at hv
    rw [Lit.text] at flat
    obtain ⟨b, x, rfl, hb⟩ := decimalText_head hv.1
    exact flat (noHead_cons.2 fun hm => digit_noConst hb ((by decide : ∀ b ∈ bytes "[{", b ∈ bytes "ntf[{$") b hm))
  | dur t sp u =>
    rw [Lit.Ok] at hv
    rw [Lit.text] at flat
    obtain ⟨b, x, rfl, hb⟩ := decimalText_head hv.1.1
    exact flat (noHead_cons.2 fun hm => digit_noConst hb ((by decide : ∀ b ∈ bytes "[{", b ∈ bytes "ntf[{$") b hm))
  | str s => rw [Lit.text] at flat; exact flat (noHead_cons.2 (by decide))
  | quoted q items =>
    rw [Lit.Ok] at hv
    rw [Lit.text] at flat
    refine flat ?_
    rcases hv.1 with rfl | rfl <;> exact noHead_cons.2 (by decide)
  | ref o p => cases o <;> (rw [Lit.text] at flat; exact flat (noHead_cons.2 (by decide)))
  | arr vs =>
    have htake := takes_cv S hn hv ha
    rw [Lit.Ok] at hv
    rw [litDepth] at hn
    have hm := one_le_depthList vs
    obtain ⟨l, rfl⟩ : ∃ l, m = l + 1 := ⟨m - 1, by omega⟩
    have hitem : ∀ w ∈ vs, ElementCost W L (.lazy fun _ => (grammar S (l + 1)).1) S.parseDecimal w := by
      intro w hw
      have h1 := okList_mem hv w hw
      have h2 := depthList_mem w hw
      refine ⟨fun r => text_quiet h1.1, fun r b hb hl => ?_⟩
      have h3 := ih (l + 1) (by omega) w [] (b :: r) (by omega) h1.1 (after_item hb h1.2) (by rwa [List.append_nil])
      have h4 := takes_cv S (n := l + 1) (by omega) h1.1 (after_item (r := r) hb h1.2)
      rw [List.append_nil] at h3 h4
      exact ⟨h3.lazy.mono (by omega), h4⟩
    have hsoft : ∀ w ∈ vs, Element' (OniComb.lazy fun _ => (softGrammar S (l + 1)).1) S.parseDecimal w := by
      intro w hw
      have h1 := okList_mem hv w hw
      have h2 := depthList_mem w hw
      refine ⟨fun r => text_quiet h1.1, fun r b hb => ?_⟩
      have := eats_lit S (l + 1) w [] (b :: r) (by omega) h1.1 (after_item hb h1.2)
      rwa [List.append_nil] at this
    have hclose : ∀ r, Fail (OniComb.lazy fun _ => (softGrammar S (l + 1)).1) (byte ']' :: r) .uncommitted := fun r => fail_cv_close
    have harr : Takes (att (arrayConfigValue (.lazy fun _ => (grammar S (l + 1)).1))).run ((Lit.arr vs).text ++ b2)
        ((Lit.arr vs).value S.parseDecimal) rest := by
      rw [run_att, array_run, run_lazy, (grammar_run S (l + 1)).1]
      exact takes_of (p := attempt (Hocon.arrayConfigValue (OniComb.lazy fun _ => (softGrammar S (l + 1)).1)))
        (eats_arrayValue hsoft (fun r => ⟨_, hclose r⟩) ha.gap ha.quiet).attempt
    have e : (Lit.arr vs).text ++ b2 ++ rest = [byte '['] ++ (textList vs ++ byte ']' :: (b2 ++ rest)) := by rw [Lit.text]; simp
    have hmany : Takes (Counted.many0Sep (.lazy fun _ => (grammar S (l + 1)).1) (spaced (lit ','))).run (textList vs)
        (valueList S.parseDecimal vs) (byte ']' :: (b2 ++ rest)) := by
      rw [run_many0Sep, spaced_run, run_lit, run_lazy, (grammar_run S (l + 1)).1]
      exact takes_of (p := many0Sep (OniComb.lazy fun _ => (softGrammar S (l + 1)).1) (Hocon.spaced (elm (byte ','))))
        (eats_elements vs hsoft ⟨_, hclose _⟩)
    have hl1 : (textList vs ++ byte ']' :: (b2 ++ rest)).length ≤ L := by rw [e, List.length_append] at hl; omega
    have hl2 : (byte ']' :: (b2 ++ rest)).length ≤ L := by rw [List.length_append] at hl1; omega
    have hc : AtMost (8 * W) (.lazy fun _ => (grammar S (l + 1)).1) (byte ']' :: (b2 ++ rest)) := by
      have h1 : AtMost (7 * W) (grammar S (l + 1)).1 (byte ']' :: (b2 ++ rest)) :=
        cv_flat hW hl2 (noHead_cons.2 (by decide)) (noHead_cons.2 (by decide))
      exact h1.lazy.mono (by omega)
    have hc' : Refuses (Counted.lazy fun _ => (grammar S (l + 1)).1).run (byte ']' :: (b2 ++ rest)) := by
      rw [run_lazy, (grammar_run S (l + 1)).1]
      exact refuses_of (p := OniComb.lazy fun _ => (softGrammar S (l + 1)).1) (hclose _)
    have h1 := elements_cost hW vs hitem hl1 hc hc'
    have h2 := AtMost.both (Steps.both_skipRight _ (spaced (lit ']'))) h1 hmany (hW.closeArr.at hl2)
    have hquiet : Quiet (textList vs ++ (byte ']' :: (b2 ++ rest))) := by
      cases vs with
      | nil => rw [textList]; exact noHead_cons.2 (by decide)
      | cons v vs => rw [textList, List.append_assoc]; exact (hitem v (by simp)).1 _
    have h3 := AtMost.both (Steps.both_skipLeft (spaced (lit '[')) _) (hW.openArr.at (by rw [← e]; exact hl))
      (takes_lit (c := '[') gap_nil (fun x => noHead_cons.2 (by decide)) hquiet) h2
    have h4 : AtMost (W + (12 * ((textList vs).length * W) + 8 * W + W)) (arrayConfigValue (.lazy fun _ => (grammar S (l + 1)).1))
        ((Lit.arr vs).text ++ b2 ++ rest) := by rw [e]; exact h3
    have e2 : (Lit.arr vs).text.length = (textList vs).length + 2 := by rw [Lit.text]; simp
    have h5 : AtMost (W + (12 * ((textList vs).length * W) + 8 * W + W) + 2 * W) (grammar S (l + 1 + 1)).1
        ((Lit.arr vs).text ++ b2 ++ rest) := cv_array hW hl hq h4 harr
    refine h5.mono ?_
    rw [e2, Nat.add_mul, Nat.mul_add]
    omega
  | obj es =>
    rw [Lit.Ok] at hv
    obtain ⟨hne, hd, hv⟩ := hv
    rw [litDepth] at hn
    have hm := one_le_depthEntries es
    obtain ⟨l, rfl⟩ : ∃ l, m = l + 1 := ⟨m - 1, by omega⟩
    have hprop : (grammar S (l + 1)).2 = property (.lazy fun _ => (grammar S l).1) (.lazy fun _ => (grammar S l).2) := rfl
    have hobj := ha.obj (fun h => h)
    have hentry : ∀ e ∈ es, EntryCost W L (.lazy fun _ => (grammar S (l + 1)).2) S.parseDecimal e := by
      rintro ⟨k, w⟩ he
      have h1 := okEntries_mem hv _ he
      have h2 := depthEntries_mem _ he
      dsimp only at h1 h2
      have hk1 : 1 ≤ k.length := by obtain ⟨b, x, rfl, -⟩ := pathText_head h1.1; simp
      have hkW := Nat.mul_le_mul_right W hk1
      have cost : ∀ t rest, Takes (grammar S l).1.run t (w.value S.parseDecimal) rest →
          AtMost (12 * (w.text.length * W)) (grammar S l).1 (t ++ rest) → (k ++ ([byte '='] ++ (t ++ rest))).length ≤ L →
          AtMost (12 * ((textEntry (k, w)).length * W)) (.lazy fun _ => (grammar S (l + 1)).2) (k ++ ([byte '='] ++ (t ++ rest))) := by
        intro t rest ht hc hl
        have h3 := property_cost (cv := .lazy fun _ => (grammar S l).1) (prop := .lazy fun _ => (grammar S l).2) hW h1.1 hl hc.lazy ht
        have h4 := AtMost.lazy (f := fun _ => (grammar S (l + 1)).2) h3
        refine h4.mono ?_
        rw [textEntry]
        simp only [List.length_append, List.length_cons, Nat.add_mul, Nat.mul_add]
        omega
      refine ⟨h1.1, fun k' r hk' hl => ?_, fun r hl => ?_⟩
      · have h3 := ih l (by omega) w [] (bytes ",\n" ++ (k' ++ r)) (by omega) h1.2 (after_comma hk') (by
          rw [textEntry] at hl; simp only [List.length_append, List.length_cons, List.append_nil] at hl ⊢; omega)
        have h4 := takes_cv S (n := l) (by omega) h1.2 (after_comma (r := r) hk')
        rw [List.append_nil] at h3 h4
        have e : textEntry (k, w) ++ (bytes ",\n" ++ (k' ++ r)) = k ++ ([byte '='] ++ (w.text ++ (bytes ",\n" ++ (k' ++ r)))) := by
          rw [textEntry]; simp
        refine ⟨by rw [e]; exact cost _ _ h4 h3 (by rw [← e]; exact hl), ?_⟩
        rw [run_lazy, (grammar_run S (l + 1)).2]
        have h5 := eats_lit S l w [] (bytes ",\n" ++ (k' ++ r)) (by omega) h1.2 (after_comma hk')
        rw [List.append_nil] at h5
        rw [textEntry, valueEntry]
        exact takes_of (p := OniComb.lazy fun _ => (softGrammar S (l + 1)).2) (eats_property h1.1 h5)
      · have h3 := ih l (by omega) w (bytes "\n") (byte '}' :: r) (by omega) h1.2 after_last (by
          rw [textEntry] at hl; simp only [List.length_append, List.length_cons] at hl ⊢; omega)
        have h4 := takes_cv S (n := l) (by omega) h1.2 (after_last (r := r))
        have e : textEntry (k, w) ++ bytes "\n" ++ byte '}' :: r = k ++ ([byte '='] ++ (w.text ++ bytes "\n" ++ byte '}' :: r)) := by
          rw [textEntry]; simp
        refine ⟨by rw [e]; exact cost _ _ h4 h3 (by rw [← e]; exact hl), ?_⟩
        rw [run_lazy, (grammar_run S (l + 1)).2]
        have h5 := eats_lit S l w (bytes "\n") (byte '}' :: r) (by omega) h1.2 after_last
        rw [textEntry, valueEntry, List.append_assoc]
        exact takes_of (p := OniComb.lazy fun _ => (softGrammar S (l + 1)).2) (eats_property h1.1 h5)
    have hsoft : ∀ e ∈ es, Entry' (OniComb.lazy fun _ => (softGrammar S (l + 1)).2) S.parseDecimal e := by
      rintro ⟨k, w⟩ he
      have h1 := okEntries_mem hv _ he
      have h2 := depthEntries_mem _ he
      dsimp only at h1 h2
      refine ⟨h1.1, fun k' r hk' => ?_, fun r => ?_⟩
      · have h5 := eats_lit S l w [] (bytes ",\n" ++ (k' ++ r)) (by omega) h1.2 (after_comma hk')
        rw [List.append_nil] at h5
        rw [textEntry, valueEntry]
        exact eats_property h1.1 h5
      · have h5 := eats_lit S l w (bytes "\n") (byte '}' :: r) (by omega) h1.2 after_last
        rw [textEntry, valueEntry, List.append_assoc]
        exact eats_property h1.1 h5
    have hclose : Fail (OniComb.lazy fun _ => (softGrammar S (l + 1)).2) (byte '}' :: (b2 ++ rest)) .uncommitted :=
      fail_property_close hobj
    have htake : Takes (att (objectConfigValue (.lazy fun _ => (grammar S (l + 1)).2))).run ((Lit.obj es).text ++ b2)
        ((Lit.obj es).value S.parseDecimal) rest := by
      rw [run_att, object_run, run_lazy, (grammar_run S (l + 1)).2]
      exact takes_of (p := attempt (Hocon.objectConfigValue (OniComb.lazy fun _ => (softGrammar S (l + 1)).2)))
        (eats_objectValue hne hd hsoft ⟨_, hclose⟩ ha.gap ha.quiet).attempt
    have e : (Lit.obj es).text ++ b2 ++ rest = [byte '{'] ++ (textEntries es ++ byte '}' :: (b2 ++ rest)) := by rw [Lit.text]; simp
    have e2 : (Lit.obj es).text.length = (textEntries es).length + 2 := by rw [Lit.text]; simp
    have hl1 : (textEntries es ++ byte '}' :: (b2 ++ rest)).length ≤ L := by rw [e, List.length_append] at hl; omega
    have hl2 : (byte '}' :: (b2 ++ rest)).length ≤ L := by rw [List.length_append] at hl1; omega
    have hc : AtMost (5 * W) (.lazy fun _ => (grammar S (l + 1)).2) (byte '}' :: (b2 ++ rest)) := by
      have h1 := property_close (cv := .lazy fun _ => (grammar S l).1) (prop := .lazy fun _ => (grammar S l).2) hW hl2 hobj
      exact (AtMost.lazy (f := fun _ => (grammar S (l + 1)).2) h1).mono (by omega)
    have hc' : Refuses (Counted.lazy fun _ => (grammar S (l + 1)).2).run (byte '}' :: (b2 ++ rest)) := by
      rw [run_lazy, (grammar_run S (l + 1)).2]
      exact refuses_of (p := OniComb.lazy fun _ => (softGrammar S (l + 1)).2) hclose
    have hr : NoHead (fun b => b = byte '[') ((Lit.obj es).text ++ b2 ++ rest) := by rw [e]; exact noHead_cons.2 (by decide)
    have hno : Refuses (att (arrayConfigValue (.lazy fun _ => (grammar S (l + 1)).1))).run ((Lit.obj es).text ++ b2 ++ rest) := by
      rw [run_att, array_run, run_lazy, (grammar_run S (l + 1)).1]
      exact refuses_of (p := attempt (Hocon.arrayConfigValue (OniComb.lazy fun _ => (softGrammar S (l + 1)).1)))
        (fail_attempt_of (fail_array hq hr))
    cases es with
    | nil => exact absurd rfl hne
    | cons x es =>
      obtain ⟨t1, t2, a, c, h1, h2, h3, h4, h5⟩ := entries_cost hW hc hc' es x hentry hl1
      have h6 := AtMost.many0Sep h3 h2 h4
      rw [← List.append_assoc, ← h1] at h6
      have hmany : ∃ vs, Takes (Counted.many0Sep (.lazy fun _ => (grammar S (l + 1)).2) (.opt (spaced (lit ',')))).run (textEntries (x :: es))
          vs (byte '}' :: (b2 ++ rest)) := by
        refine ⟨valueEntries S.parseDecimal (x :: es), ?_⟩
        rw [run_many0Sep, run_opt, spaced_run, run_lit, run_lazy, (grammar_run S (l + 1)).2]
        refine takes_of (p := many0Sep (OniComb.lazy fun _ => (softGrammar S (l + 1)).2) (opt (Hocon.spaced (elm (byte ','))))) ?_
        refine eats_many0Sep.2 (.inr ?_)
        obtain ⟨t1, t2, h3, h4, h5⟩ := eats_entries (x := b2 ++ rest) es x hsoft
        refine eats_many1Sep.2 ⟨t1, t2, [], _, _, by simpa using h3, by rw [valueEntries], h4, h5, .inr ⟨⟨none, ?_⟩, ⟨_, hclose⟩⟩⟩
        exact eats_opt.2 (.inr ⟨rfl, rfl, .uncommitted, fail_spaced' (noHead_cons.2 (by decide))
          (fail_elm.2 ⟨rfl, by rintro r' ⟨⟩⟩)⟩)
      obtain ⟨vs, hmany⟩ := hmany
      have h7 := AtMost.both (Steps.both_skipRight _ (spaced (lit '}'))) h6 hmany (hW.closeObj.at hl2)
      have hquiet : Quiet (textEntries (x :: es) ++ (byte '}' :: (b2 ++ rest))) := by
        obtain ⟨k, v⟩ := x
        rw [textEntries, textEntry, List.append_assoc, List.append_assoc]
        exact pathText_quiet (hentry (k, v) (by simp)).1
      have h8 := AtMost.both (Steps.both_skipLeft (spaced (lit '{')) _) (hW.openObj.at (by rw [← e]; exact hl))
        (takes_lit (c := '{') gap_nil (fun x => noHead_cons.2 (by decide)) hquiet) h7
      have h9 : AtMost (W + (a + c + W)) (objectConfigValue (.lazy fun _ => (grammar S (l + 1)).2))
          ((Lit.obj (x :: es)).text ++ b2 ++ rest) := by rw [e]; exact h8
      have h10 : AtMost (W + (a + c + W) + 3 * W) (grammar S (l + 1 + 1)).1 ((Lit.obj (x :: es)).text ++ b2 ++ rest) :=
        cv_object hW hl hq hr hno h9 htake
      refine h10.mono ?_
      rw [e2, Nat.add_mul, Nat.mul_add]
      omega

/-! ### Documents -/

theorem after_line {k : Bytes} {v : Lit} {ds : List (Bytes × Lit)} (h : DocOk S.parseDecimal ((k, v) :: ds)) :
    After v (bytes "\n") (docText ds) := by
  rw [DocOk] at h
  have hq := docText_quiet ds h.2.2.2
  refine ⟨gap_line, hq.1, noHead_cons.2 (by decide), fun hnum => ?_, fun _ => ⟨[], [], docText ds, .inl rfl, rfl, gap_line, hq.1, hq.2⟩⟩
  rcases docText_head ds h.2.2.2 with h' | ⟨k', r, hk', h', e, he, rfl⟩
  · rw [h']; exact noHead_nil
  · rw [h']
    obtain ⟨b, x, hx, -⟩ := pathText_head hk'
    rw [hx]
    exact noHead_cons.2 (h.2.2.1 hnum e he b (by rw [hx]; rfl))

/-- A line of a document. -/
theorem line_cost (hW : Leaves S W L) {n : Nat} {k : Bytes} {v : Lit} {ds : List (Bytes × Lit)} (hn : litDepth v ≤ n)
    (h : DocOk S.parseDecimal ((k, v) :: ds)) (hl : (docText ((k, v) :: ds)).length ≤ L) :
    ∃ t a, docText ((k, v) :: ds) = t ++ docText ds ∧ AtMost a (grammar S (n + 1)).2 (t ++ docText ds) ∧
      Takes (grammar S (n + 1)).2.run t (k, v.value S.parseDecimal) (docText ds) ∧ a ≤ 12 * (t.length * W) := by
  have hpos := hW.pos
  have ha := after_line h
  rw [DocOk] at h
  have hk1 : 1 ≤ k.length := by obtain ⟨b, x, rfl, -⟩ := pathText_head h.1; simp
  have hkW := Nat.mul_le_mul_right W hk1
  have e : docText ((k, v) :: ds) = k ++ ([byte '='] ++ (v.text ++ bytes "\n" ++ docText ds)) := by
    rw [docText, show bytes "\n" = [byte '\n'] from rfl]; simp
  have e' : docText ((k, v) :: ds) = (k ++ (byte '=' :: (v.text ++ bytes "\n"))) ++ docText ds := by rw [e]; simp
  rw [e] at hl
  have h1 := lit_cost hW n v (bytes "\n") (docText ds) hn h.2.1 ha (by simp only [List.length_append] at hl ⊢; omega)
  have h2 := property_cost (cv := .lazy fun _ => (grammar S n).1) (prop := .lazy fun _ => (grammar S n).2) hW h.1 hl h1.lazy
    (takes_cv S hn h.2.1 ha)
  refine ⟨_, 2 * W + (1 + 12 * (v.text.length * W)), e', ?_, ?_, ?_⟩
  · rw [← e', e]; exact h2
  · rw [(grammar_run S (n + 1)).2]
    exact takes_of (p := (softGrammar S (n + 1)).2) (eats_property h.1 (eats_lit S n v (bytes "\n") (docText ds) hn h.2.1 ha))
  · simp only [List.length_append, List.length_cons, Nat.add_mul, Nat.mul_add]
    omega

theorem lines_cost (hW : Leaves S W L) {n : Nat} (ds : List (Bytes × Lit)) (hn : depthEntries ds ≤ n) (h : DocOk S.parseDecimal ds)
    (hl : (docText ds).length ≤ L) : LoopCost (12 * ((docText ds).length * W) + W) (grammar S (n + 1)).2 (docText ds) := by
  induction ds with
  | nil =>
    rw [docText]
    have h1 : AtMost W (grammar S (n + 1)).2 [] := property_end hW
    have h2 : Refuses (grammar S (n + 1)).2.run [] := by
      rw [(grammar_run S (n + 1)).2]
      exact refuses_of (p := (softGrammar S (n + 1)).2) fail_property_end
    have h3 := LoopCost.stop h1 h2
    rwa [List.length_nil, Nat.zero_mul, Nat.mul_zero, Nat.zero_add]
  | cons e ds ih =>
    obtain ⟨k, v⟩ := e
    rw [depthEntries, depthEntry] at hn
    obtain ⟨t, a, h1, h2, h3, h4⟩ := line_cost hW (n := n) (by omega) h hl
    rw [DocOk] at h
    rw [h1] at hl ⊢
    have h5 := LoopCost.cons h2 h3 (ih (by omega) h.2.2.2 (by rw [List.length_append] at hl; omega))
    intro fuel pre items len
    refine Nat.le_trans (h5 fuel pre items len) ?_
    rw [List.length_append, Nat.add_mul]
    omega

theorem doc_cost (hW : Leaves S W L) {n : Nat} (ds : List (Bytes × Lit)) (hne : ds ≠ []) (hn : depthEntries ds ≤ n)
    (h : DocOk S.parseDecimal ds) (hl : (docText ds).length ≤ L) :
    (hocon S (n + 1)).steps ⟨docText ds, 0⟩ ≤ 12 * ((docText ds).length * W) + 3 * W := by
  have hpos := hW.pos
  have hmany : Takes (att (mapped (.many1 (grammar S (n + 1)).2) fun ps => [Value.obj (configFold ps)])).run (docText ds)
      [Value.obj (configFold (valueEntries S.parseDecimal ds))] [] := by
    rw [run_att, run_mapped, run_many1, (grammar_run S (n + 1)).2]
    have h2 : Eats (many1 (softGrammar S (n + 1)).2) (docText ds) (valueEntries S.parseDecimal ds) [] := by
      refine eats_many1.2 ⟨?_, many_doc S n ds hn h, .uncommitted, fail_property_end⟩
      cases ds with
      | nil => exact absurd rfl hne
      | cons e ds => rw [valueEntries]; simp
    exact takes_of (p := attempt (map (many1 (softGrammar S (n + 1)).2) fun ps => [Value.obj (configFold ps)])) (h2.map _).attempt
  have hcost : AtMost (12 * ((docText ds).length * W) + W)
      (att (mapped (.many1 (grammar S (n + 1)).2) fun ps => [Value.obj (configFold ps)])) (docText ds ++ []) := by
    rw [List.append_nil]
    cases ds with
    | nil => exact absurd rfl hne
    | cons e ds =>
      obtain ⟨k, v⟩ := e
      rw [depthEntries, depthEntry] at hn
      obtain ⟨t, a, h1, h2, h3, h4⟩ := line_cost hW (n := n) (by omega) h hl
      rw [DocOk] at h
      rw [h1] at hl ⊢
      have h5 := AtMost.many1 h2 h3 (lines_cost hW ds (n := n) (by omega) h.2.2.2 (by rw [List.length_append] at hl; omega))
      refine AtMost.mono (p := .many1 (grammar S (n + 1)).2) h5 ?_
      rw [List.length_append, Nat.add_mul]
      omega
  have h1 : AtMost (12 * ((docText ds).length * W) + W) (config (grammar S (n + 1)).1 (grammar S (n + 1)).2) (docText ds ++ []) :=
    (hcost.or_taken hmany).or_taken (or_left hmany)
  have hq := (docText_quiet ds h).1
  rw [List.append_nil] at h1
  have h2 : AtMost (W + (12 * ((docText ds).length * W) + W)) (.skipLeft spaceOrComment (config (grammar S (n + 1)).1 (grammar S (n + 1)).2))
      (docText ds) := AtMost.both (t := []) (Steps.both_skipLeft spaceOrComment _) (hW.soc.at hl) (soc_takes hq) h1
  have h3 := h2 []
  rw [List.nil_append, List.length_nil] at h3
  show Counted.steps _ _ + (Counted.run _ _).onSuccess _ ≤ _
  refine Nat.le_trans (Nat.add_le_add h3 (show _ ≤ 1 from ?_)) (by omega)
  cases (Counted.skipLeft spaceOrComment (config (grammar S (n + 1)).1 (grammar S (n + 1)).2)).run ⟨docText ds, 0⟩ <;>
    simp [Res.onSuccess, prim]

theorem text_in {vs : List Lit} : ∀ v ∈ vs, v.text.length ≤ (textList vs).length := by
  induction vs with
  | nil => intro v hv; cases hv
  | cons w vs ih =>
    intro v hv
    rw [textList, List.length_append]
    rcases List.mem_cons.1 hv with rfl | hv
    · omega
    · have := ih v hv
      have hne : vs.isEmpty = false := by cases vs with
        | nil => cases hv
        | cons _ _ => rfl
      rw [hne]
      simp only [Bool.false_eq_true, if_false, List.length_cons]
      omega

theorem entry_in {es : List (Bytes × Lit)} : ∀ e ∈ es, e.2.text.length + 2 ≤ (textEntries es).length := by
  induction es with
  | nil => intro v hv; cases hv
  | cons w es ih =>
    intro e he
    obtain ⟨k, v⟩ := w
    rw [textEntries, textEntry]
    simp only [List.length_append, List.length_cons]
    have e1 : (bytes "\n").length = 1 := rfl
    have e2 : (bytes ",\n").length = 2 := rfl
    rcases List.mem_cons.1 he with rfl | he
    · split <;> simp only [List.length_append, e1, e2] <;> omega
    · have := ih e he
      have hne : es.isEmpty = false := by cases es with
        | nil => cases he
        | cons _ _ => rfl
      rw [hne]
      simp only [Bool.false_eq_true, if_false, List.length_append]
      omega

theorem depthList_le {vs : List Lit} {b : Nat} (hb : 1 ≤ b) (h : ∀ v ∈ vs, litDepth v ≤ b) : depthList vs ≤ b := by
  induction vs with
  | nil => rw [depthList]; exact hb
  | cons v vs ih => rw [depthList]; exact Nat.max_le.2 ⟨h v (by simp), ih fun x hx => h x (by simp [hx])⟩

theorem depthEntries_le {es : List (Bytes × Lit)} {b : Nat} (hb : 1 ≤ b) (h : ∀ e ∈ es, litDepth e.2 ≤ b) : depthEntries es ≤ b := by
  induction es with
  | nil => rw [depthEntries]; exact hb
  | cons v es ih =>
    rw [depthEntries]
    refine Nat.max_le.2 ⟨?_, ih fun x hx => h x (by simp [hx])⟩
    have := h v (by simp)
    obtain ⟨k, w⟩ := v
    rw [depthEntry]
    exact this

/-- A literal is not nested deeper than it is long. -/
theorem depth_le {dec : Bytes → Option Decimal} (n : Nat) : ∀ v : Lit, litDepth v ≤ n → v.Ok dec → litDepth v ≤ v.text.length := by
  induction n with
  | zero =>
    intro v hn _
    omega
  | succ n ih =>
    intro v hn hv
    have hpos := text_pos hv
    cases v with
    | arr vs =>
      rw [Lit.Ok] at hv
      rw [litDepth] at hn ⊢
      rw [Lit.text]
      simp only [List.length_append, List.length_cons, List.length_nil]
      have h1 : depthList vs ≤ (textList vs).length + 1 := depthList_le (by omega) fun w hw => by
        have h1 := okList_mem hv w hw
        have h2 := depthList_mem w hw
        have h3 := text_in w hw
        have := ih w (by omega) h1.1
        omega
      omega
    | obj es =>
      rw [Lit.Ok] at hv
      obtain ⟨hne, -, hv⟩ := hv
      rw [litDepth] at hn ⊢
      rw [Lit.text]
      simp only [List.length_append, List.length_cons, List.length_nil]
      have h1 : depthEntries es ≤ (textEntries es).length := depthEntries_le (by
          cases es with
          | nil => exact absurd rfl hne
          | cons e es => have := entry_in e (es := e :: es) (by simp); omega) fun e he => by
        have h1 := okEntries_mem hv e he
        have h2 := depthEntries_mem e he
        have h3 := entry_in e he
        have := ih e.2 (by omega) h1.2
        omega
      omega
    | _ => simpa only [litDepth] using hpos

theorem docDepth_le {dec : Bytes → Option Decimal} (ds : List (Bytes × Lit)) (hne : ds ≠ []) (h : DocOk dec ds) :
    depthEntries ds ≤ (docText ds).length := by
  have key : ∀ ds : List (Bytes × Lit), DocOk dec ds → ∀ e ∈ ds, litDepth e.2 ≤ (docText ds).length := by
    intro ds
    induction ds with
    | nil => intro _ e he; cases he
    | cons d ds ih =>
      obtain ⟨k, v⟩ := d
      intro h e he
      rw [DocOk] at h
      rw [docText]
      simp only [List.length_append, List.length_cons]
      rcases List.mem_cons.1 he with rfl | he
      · have := depth_le _ v (Nat.le_refl _) h.2.1
        dsimp only
        omega
      · have := ih h.2.2.2 e he
        omega
  refine depthEntries_le ?_ (key ds h)
  cases ds with
  | nil => exact absurd rfl hne
  | cons d ds => obtain ⟨k, v⟩ := d; rw [docText]; simp only [List.length_append, List.length_cons]; omega

end

/-- **C149, partly**: a document of definitions on lines of their own, whose objects are closed on lines of their own, is accepted within
a number of steps that is bounded by the fourth power of its length, however deep the objects are nested. -/
theorem c149_document_partial : ∃ K, ∀ (S : Std) (ds : List (Bytes × Lit)), ds ≠ [] → DocOk S.parseDecimal ds →
    ∀ n, (docText ds).length < n → (∃ es, parse (Hocon.hocon S n) (docText ds) = .ok [.obj es]) ∧
      (hocon S n).steps ⟨docText ds, 0⟩ ≤ K * ((docText ds).length + 1) ^ 4 := by
  obtain ⟨K, hK⟩ := leaves
  refine ⟨15 * K, fun S ds hne h n hn => ?_⟩
  obtain ⟨m, rfl⟩ : ∃ m, n = m + 1 := ⟨n - 1, by omega⟩
  have hd := docDepth_le ds hne h
  refine ⟨⟨_, hocon_doc S m ds hne (by omega) h⟩, ?_⟩
  have h1 := doc_cost (hK S (docText ds).length) (n := m) ds hne (by omega) h (Nat.le_refl _)
  refine Nat.le_trans h1 ?_
  generalize (docText ds).length = l
  have e : 15 * K * (l + 1) ^ 4 = 15 * ((l + 1) * (K * (l + 1) ^ 3)) := by
    rw [mul_left_succ, Nat.mul_assoc]
  rw [e, Nat.add_mul]
  omega

/-- The theorem applies to nested objects. -/
example : DocOk (fun _ => none) [([byte 'a'], .obj [([byte 'b'], .obj [([byte 'c'], .null), ([byte 'd'], .arr [.bool true, .null])])])] := by
  have ha : PathText [byte 'a'] := path_a
  have hb : PathText [byte 'b'] := ⟨[[byte 'b']], by simp, by simp [Segment]; decide, rfl⟩
  have hc : PathText [byte 'c'] := ⟨[[byte 'c']], by simp, by simp [Segment]; decide, rfl⟩
  have hd : PathText [byte 'd'] := ⟨[[byte 'd']], by simp, by simp [Segment]; decide, rfl⟩
  simp only [DocOk, Lit.Ok, OkEntries, OkEntry, OkList, Lit.flat, Lit.isNum, and_true]
  refine ⟨ha, ⟨by simp, by simp, hb, by simp, by decide, hc, hd⟩, fun h => h.elim⟩

end OniComb.Hocon.Counting
