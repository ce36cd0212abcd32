import Verif.Props.HoconSteps
import Verif.Lemmas.HoconLive
import Verif.Lemmas.Lin

/-!
# Helper lemmas: parsers whose steps are bounded by a power of what is left

`Poly d k c`: a run of `c` takes at most `k * (left + 1) ^ d` steps. A repetition raises the exponent by one.
-/

set_option linter.unusedSectionVars false

namespace OniComb.Hocon.Counting
open OniComb OniComb.Hocon OniComb.Hocon.Spec
open OniComb.Uri (Bytes byte bytes fromUtf8 parseUInt mapUnwrap text)
open OniComb.Uri.Counting (C coll att mapped tried txt lit among)
open OniComb.Counted (prim unary)
open OniComb.Steps (left left_advance fits_advance)

variable {A B D : Type} {d k k' k'' : Nat}

class Poly (d : Nat) (k : outParam Nat) (c : C A) : Prop where
  live : ∀ n, Live n c.run
  le : ∀ s : State UInt8, s.offset ≤ s.input.length → c.steps s ≤ k * (left s + 1) ^ d

/-- A success consumes something. -/
class AdvC (c : C A) : Prop where
  adv : Adv c.run

theorem Poly.fits {c : C A} (h : Poly d k c) {s : State UInt8} {v : A} {n : Nat} (hs : s.offset ≤ s.input.length)
    (hr : c.run s = .success v n) : n ≤ left s := by
  have := (h.live (left s + 1)).live s hs (by unfold left; omega)
  rw [hr] at this
  have : s.offset + n ≤ s.input.length := this
  unfold left
  omega

theorem pow_mono {a b : Nat} (h : a ≤ b) : (a + 1) ^ d ≤ (b + 1) ^ d := Nat.pow_le_pow_left (by omega) d

instance {p : Parser UInt8 A} [h : ∀ n, Live n p] : Poly d 1 (prim p) where
  live := h
  le := fun s _ => by
    have : 1 ≤ (left s + 1) ^ d := Nat.one_le_pow _ _ (by omega)
    show 1 ≤ _
    omega

instance (w : Bytes) : Poly d (w.length + 1) (.seq w : C Bytes) where
  live := fun n => inferInstanceAs (Live n (OniComb.seq w))
  le := fun s _ => by
    have : 1 ≤ (left s + 1) ^ d := Nat.one_le_pow _ _ (by omega)
    show w.length + 1 ≤ _
    exact Nat.le_mul_of_pos_right _ this

instance (c : Char) : Poly d 1 (lit c) := inferInstanceAs (Poly d 1 (prim _))
instance (s : String) : Poly d 1 (among s) := inferInstanceAs (Poly d 1 (prim _))

instance {p : C A} [h : Poly d k p] : Poly d k (att p) := ⟨fun n => have := h.live n; inferInstanceAs (Live n (attempt p.run)), h.le⟩
instance {p : C A} [h : Poly d k p] : Poly d k (coll p) := ⟨fun n => have := h.live n; inferInstanceAs (Live n (collect p.run)), h.le⟩
instance {p : C A} {f : A → B} [h : Poly d k p] : Poly d k (mapped p f) :=
  ⟨fun n => have := h.live n; inferInstanceAs (Live n (map p.run f)), h.le⟩
instance {p : C A} {f : A → Option B} [h : Poly d k p] : Poly d k (tried p f) :=
  ⟨fun n => have := h.live n; inferInstanceAs (Live n (mapRes p.run f)), h.le⟩
instance {p : C A} [h : Poly d k p] : Poly d k (txt p) := inferInstanceAs (Poly d k (tried (mapped (coll p) id) fromUtf8))
instance {p : C A} [h : Poly d k p] : Poly d k (unary discard p) :=
  ⟨fun n => have := h.live n; inferInstanceAs (Live n (discard p.run)), h.le⟩

theorem poly_both {c : C D} {p : C A} {q : C B} (hc : Steps.Both c p q) (hl : ∀ n, Live n c.run) (hp : Poly d k p) (hq : Poly d k' q) :
    Poly d (k + k') c where
  live := hl
  le := fun s hs => by
    rw [hc.steps, Nat.add_mul]
    refine Nat.add_le_add (hp.le s hs) ?_
    cases hr : p.run s with
    | success v n =>
      have h1 := hp.fits hs hr
      have h2 := left_advance h1
      exact Nat.le_trans (hq.le _ (fits_advance hs h1)) (Nat.mul_le_mul_left _ (pow_mono (by omega)))
    | _ => exact Nat.zero_le _

instance {p : C A} {q : C B} [hp : Poly d k p] [hq : Poly d k' q] : Poly d (k + k') (.andThen p q) :=
  poly_both (Steps.both_andThen p q) (fun n => have := hp.live n; have := hq.live n; inferInstanceAs (Live n (OniComb.andThen p.run q.run))) hp hq
instance {p : C A} {q : C B} [hp : Poly d k p] [hq : Poly d k' q] : Poly d (k + k') (.skipLeft p q) :=
  poly_both (Steps.both_skipLeft p q) (fun n => have := hp.live n; have := hq.live n; inferInstanceAs (Live n (OniComb.skipLeft p.run q.run))) hp hq
instance {p : C A} {q : C B} [hp : Poly d k p] [hq : Poly d k' q] : Poly d (k + k') (.skipRight p q) :=
  poly_both (Steps.both_skipRight p q) (fun n => have := hp.live n; have := hq.live n; inferInstanceAs (Live n (OniComb.skipRight p.run q.run))) hp hq
instance {l : C A} {p : C B} {r : C D} [hl : Poly d k l] [hp : Poly d k' p] [hr : Poly d k'' r] : Poly d (k + (k' + k'')) (.surround l p r) :=
  inferInstanceAs (Poly d (k + (k' + k'')) (.skipLeft l (.skipRight p r)))

instance {p q : C A} [hp : Poly d k p] [hq : Poly d k' q] : Poly d (k + k') (.or p q) where
  live := fun n => have := hp.live n; have := hq.live n; inferInstanceAs (Live n (OniComb.or p.run q.run))
  le := fun s hs => by
    show p.steps s + (p.run s).onUncommitted (q.steps s) ≤ _
    have h1 := hp.le s hs
    have h2 := hq.le s hs
    rw [Nat.add_mul]
    cases p.run s with
    | failure e st => cases st <;> simp only [Res.onUncommitted] <;> omega
    | _ => simp only [Res.onUncommitted]; omega

instance {p : C A} [hp : Poly d k p] : Poly d (k + 1) (.opt p) := by
  have h : Poly d k (unary (fun p => map (attempt p) some) p) :=
    ⟨fun n => have := hp.live n; inferInstanceAs (Live n (map (attempt p.run) some)), hp.le⟩
  exact inferInstanceAs (Poly d (k + 1) (.or (unary (fun p => map (attempt p) some) p) (prim (successful none))))

theorem mul_left_succ (k d l : Nat) : (l + 1) * (k * (l + 1) ^ d) = k * (l + 1) ^ (d + 1) := by
  rw [Nat.pow_succ, Nat.mul_comm, Nat.mul_assoc]

theorem loop_le {p : C A} (hp : Poly d k p) (ha : Adv p.run) (N : Nat) : ∀ fuel (st : LoopState UInt8 A),
    st.cur.offset ≤ st.cur.input.length → left st.cur ≤ N →
    Counted.loopSteps p fuel st ≤ (left st.cur + 1) * (k * (N + 1) ^ d) := by
  intro fuel
  induction fuel with
  | zero => intro st _ _; exact Nat.zero_le _
  | succ fuel ih =>
    intro st hs hN
    have h1 := Nat.le_trans (hp.le _ hs) (Nat.mul_le_mul_left k (pow_mono hN))
    rw [Counted.loopSteps, Nat.add_mul, Nat.one_mul, Nat.add_comm]
    refine Nat.add_le_add ?_ h1
    cases hr : p.run st.cur with
    | success v n =>
      have h2 := hp.fits hs hr
      have h3 := left_advance h2
      have h4 := ha.adv _ _ _ hr
      exact Nat.le_trans (ih ⟨st.cur.advanceBy n, st.items ++ [v], st.length + n⟩ (fits_advance hs h2) (by dsimp only; omega))
        (Nat.mul_le_mul_right _ (by dsimp only; omega))
    | _ => exact Nat.zero_le _

theorem from_le {p : C A} (hp : Poly d k p) (ha : Adv p.run) (a : Nat) (s : State UInt8) (hs : s.offset ≤ s.input.length) :
    (Counted.repeatFrom a p).steps s ≤ k * (left s + 1) ^ (d + 1) := by
  rw [← mul_left_succ, Nat.add_mul, Nat.one_mul, Nat.add_comm]
  refine Nat.add_le_add (hp.le s hs) ?_
  cases hr : p.run s with
  | success v n =>
    have h2 := hp.fits hs hr
    have h3 := left_advance h2
    have h4 := ha.adv _ _ _ hr
    exact Nat.le_trans (loop_le hp ha (left s) _ ⟨s.advanceBy n, [v], n⟩ (fits_advance hs h2) (by dsimp only; omega))
      (Nat.mul_le_mul_right _ (by dsimp only; omega))
  | _ => exact Nat.zero_le _

instance {p : C A} [hp : Poly d k p] [ha : AdvC p] : Poly (d + 1) k (.many0 p) where
  live := fun n => have := hp.live n; have := ha.adv; inferInstanceAs (Live n (OniComb.many0 p.run))
  le := from_le hp ha.adv 0

instance {p : C A} [hp : Poly d k p] [ha : AdvC p] : Poly (d + 1) k (.many1 p) where
  live := fun n => have := hp.live n; have := ha.adv; inferInstanceAs (Live n (OniComb.many1 p.run))
  le := from_le hp ha.adv 1

theorem sep_le {p : C A} {q : C B} (hp : Poly d k p) (hq : Poly d k' q) (ha : Adv p.run) (N : Nat) : ∀ fuel (st : LoopState UInt8 A),
    st.cur.offset ≤ st.cur.input.length → left st.cur ≤ N →
    Counted.repSteps p (some q) .unbounded fuel st ≤ (left st.cur + 1) * ((k + k') * (N + 1) ^ d) := by
  intro fuel
  induction fuel with
  | zero => intro st _ _; exact Nat.zero_le _
  | succ fuel ih =>
    intro st hs hN
    have h1 := Nat.le_trans (hq.le _ hs) (Nat.mul_le_mul_left k' (pow_mono hN))
    have hb : boundReached .unbounded st.items.length = false := rfl
    simp only [Counted.repSteps, hb, Bool.false_eq_true, if_false]
    have e : (left st.cur + 1) * ((k + k') * (N + 1) ^ d) =
        k' * (N + 1) ^ d + (k * (N + 1) ^ d + left st.cur * ((k + k') * (N + 1) ^ d)) := by
      rw [Nat.add_mul, Nat.one_mul, Nat.add_mul k k']; omega
    rw [e]
    refine Nat.add_le_add h1 ?_
    cases hr : q.run st.cur with
    | success b m =>
      have h2 := hq.fits hs hr
      have h3 := left_advance h2
      have h5 := fits_advance hs h2
      have h6 := Nat.le_trans (hp.le _ h5) (Nat.mul_le_mul_left k (pow_mono (d := d) (show left (st.cur.advanceBy m) ≤ N by omega)))
      refine Nat.add_le_add h6 ?_
      dsimp only
      cases hr' : p.run (st.cur.advanceBy m) with
      | success v n =>
        have h7 := hp.fits h5 hr'
        have h8 := left_advance h7
        have h9 := ha.adv _ _ _ hr'
        exact Nat.le_trans (ih ⟨(st.cur.advanceBy m).advanceBy n, st.items ++ [v], st.length + m + n⟩ (fits_advance h5 h7)
          (by dsimp only; omega)) (Nat.mul_le_mul_right _ (by dsimp only; omega))
      | _ => exact Nat.zero_le _
    | _ => exact Nat.zero_le _

instance {p : C A} {q : C B} [hp : Poly d k p] [hq : Poly d k' q] [ha : AdvC p] : Poly (d + 1) (k + k') (.many1Sep p q) where
  live := fun n => have := hp.live n; have := hq.live n; have := ha.adv; inferInstanceAs (Live n (OniComb.many1Sep p.run q.run))
  le := fun s hs => by
    rw [← mul_left_succ, Nat.add_mul, Nat.one_mul, Nat.add_comm]
    refine Nat.add_le_add (Nat.le_trans (hp.le s hs) (Nat.mul_le_mul_right _ (Nat.le_add_right _ _))) ?_
    cases hr : p.run s with
    | success v n =>
      have h2 := hp.fits hs hr
      have h3 := left_advance h2
      have h4 := ha.adv.adv _ _ _ hr
      exact Nat.le_trans (sep_le hp hq ha.adv (left s) _ ⟨s.advanceBy n, [v], n⟩ (fits_advance hs h2) (by dsimp only; omega))
        (Nat.mul_le_mul_right _ (by dsimp only; omega))
    | _ => exact Nat.zero_le _

instance (m : Nat) : Poly d (1 * (m + 2)) (.count (prim elmHexDigit) m : C Bytes) where
  live := fun n => inferInstanceAs (Live n (OniComb.count elmHexDigit m))
  le := fun s hs => by
    have h := ((Steps.fair_elmPred (fun b : UInt8 => Element.isHexDigit b)).count m).lin.le s hs
    have : 1 ≤ (left s + 1) ^ d := Nat.one_le_pow _ _ (by omega)
    rw [Nat.zero_mul, Nat.zero_add] at h
    exact Nat.le_trans h (Nat.le_mul_of_pos_right _ this)

instance : Poly (d + 1) 1 lineRest where
  live := fun n => inferInstanceAs (Live n (takeTill0 _))
  le := fun s hs => by
    rw [Nat.one_mul, Nat.pow_succ]
    have h1 : ((s.input.drop s.offset).takeWhile fun c => !(c == byte '\r' || c == byte '\n')).length ≤ left s := by
      refine Nat.le_trans (List.IsPrefix.length_le (List.takeWhile_prefix _)) ?_
      rw [List.length_drop]; exact Nat.le_refl _
    have h2 : 1 ≤ (left s + 1) ^ d := Nat.one_le_pow _ _ (by omega)
    have h3 := Nat.mul_le_mul_right (left s + 1) h2
    show _ + 1 ≤ _
    omega

/-! ### What consumes something -/

section
variable {p q : C A} {q' : C B} {r : C D}
instance {x : Parser UInt8 A} [h : Adv x] : AdvC (prim x) := ⟨h⟩
instance (c : Char) : AdvC (lit c) := ⟨inferInstanceAs (Adv (elm _))⟩
instance (s : String) : AdvC (among s) := ⟨inferInstanceAs (Adv (elmOf _))⟩
instance {w : Bytes} [h : Adv (OniComb.seq w)] : AdvC (.seq w : C Bytes) := ⟨h⟩
instance [h : AdvC p] : AdvC (att p) := ⟨have := h.adv; inferInstanceAs (Adv (attempt p.run))⟩
instance [h : AdvC p] : AdvC (coll p) := ⟨have := h.adv; inferInstanceAs (Adv (collect p.run))⟩
instance {f : A → B} [h : AdvC p] : AdvC (mapped p f) := ⟨have := h.adv; inferInstanceAs (Adv (map p.run f))⟩
instance {f : A → Option B} [h : AdvC p] : AdvC (tried p f) := ⟨have := h.adv; inferInstanceAs (Adv (mapRes p.run f))⟩
instance [h : AdvC p] : AdvC (txt p) := inferInstanceAs (AdvC (tried (mapped (coll p) id) fromUtf8))
instance [h : AdvC p] [h' : AdvC q] : AdvC (.or p q) := ⟨have := h.adv; have := h'.adv; inferInstanceAs (Adv (OniComb.or p.run q.run))⟩
instance [h : AdvC p] : AdvC (.andThen p q') := ⟨have := h.adv; inferInstanceAs (Adv (OniComb.andThen p.run q'.run))⟩
instance (priority := low) [h : AdvC q'] : AdvC (.andThen p q') := ⟨have := h.adv; inferInstanceAs (Adv (OniComb.andThen p.run q'.run))⟩
instance [h : AdvC p] : AdvC (.skipLeft p q') := ⟨have := h.adv; inferInstanceAs (Adv (OniComb.skipLeft p.run q'.run))⟩
instance [h : AdvC q'] : AdvC (.surround p q' r) := ⟨have := h.adv; inferInstanceAs (Adv (OniComb.surround p.run q'.run r.run))⟩
instance [h : AdvC p] : AdvC (.many1 p) := ⟨have := h.adv; inferInstanceAs (Adv (OniComb.many1 p.run))⟩
instance [h : AdvC p] : AdvC (.many1Sep p q') := ⟨have := h.adv; inferInstanceAs (Adv (OniComb.many1Sep p.run q'.run))⟩
end

instance {p : C A} [h : Poly d k p] {f : A → Option B} : Poly d k (unary (mapUnwrap · f) p) :=
  ⟨fun n => have := h.live n; inferInstanceAs (Live n (mapUnwrap p.run f)), h.le⟩

set_option synthInstance.maxSize 2000

theorem poly_soc : ∃ k, Poly 3 k spaceOrComment := by
  unfold spaceOrComment comment space
  exact ⟨_, inferInstance⟩
theorem poly_spaced (c : Char) : ∃ k, Poly 3 k (spaced (lit c)) := by
  unfold spaced spaceOrComment comment space
  exact ⟨_, inferInstance⟩
theorem poly_comma : ∃ k, Poly 3 k (Counted.opt (spaced (lit ','))) := by
  unfold spaced spaceOrComment comment space
  exact ⟨_, inferInstance⟩
theorem poly_kv : ∃ k, Poly 3 k kv := by
  unfold kv
  exact ⟨_, inferInstance⟩
theorem poly_key : ∃ k, Poly 3 k key := by
  unfold key path pathElement string stringSurround charString specialChar utf16String utf16Char quote spaced spaceOrComment comment space
  exact ⟨_, inferInstance⟩
theorem poly_ref : ∃ k, Poly 3 k referenceConfigValue := by
  unfold referenceConfigValue reference pathElement spaced spaceOrComment comment space
  exact ⟨_, inferInstance⟩
theorem poly_enum : ∃ k, Poly 3 k enumerationConfigValue := by
  unfold enumerationConfigValue stringConfigValue referenceConfigValue reference pathElement string stringSurround charString specialChar
    utf16String utf16Char quote spaced spaceOrComment comment space
  exact ⟨_, inferInstance⟩
theorem poly_simple : ∃ k, ∀ S, Poly 3 k (simpleConfigValue S) := by
  unfold simpleConfigValue stringConfigValue durationValue duration unitP unit5 unit3 spelling numberValue number numberBare integer frac exp
    string stringSurround charString specialChar utf16String utf16Char quote spaced spaceOrComment comment space
  exact ⟨_, fun _ => inferInstance⟩

end OniComb.Hocon.Counting
