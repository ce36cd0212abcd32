import Verif.Lemmas.Twins
import Verif.Props.Laws

/-!
# What is done with the values does not influence what is read (C128)
-/

namespace OniComb
variable {I A A' B B' : Type}

/-- Two parsers assembled in the same way, with functions in between that take related values to related values, have
the same outcome everywhere, with related values. -/
theorem c128_twins {exact : Bool} {R : A → A' → Prop} {p : Parser I A} {p' : Parser I A'} (h : Twins exact R p p')
    (s : State I) : Alike exact R (p s) (p' s) := h.alike s

/-- Also recursive ones. -/
theorem c128_recursive {exact : Bool} {R : A → A' → Prop} (F : Parser I A → Parser I A) (F' : Parser I A' → Parser I A')
    (h : ∀ p p', Twins exact R p p' → Twins exact R (F p) (F' p')) (n : Nat) (s : State I) :
    Alike exact R (fixN F n s) (fixN F' n s) := by
  have : Twins exact R (fixN F n) (fixN F' n) := by
    induction n with
    | zero => exact .diverging R
    | succ n ih => exact h _ _ (.lazy ih)
  exact this.alike s

/-- Values that are the image of the others: the parser is a `map`. -/
theorem image_iff_map (f : A → B) (p : Parser I A) (q : Parser I B) :
    (∀ s, Alike true (fun a b => f a = b) (p s) (q s)) ↔ q = map p f := by
  constructor
  · intro h
    funext s
    unfold map
    rcases (h s).elim with ⟨_, _, _, e, e', h⟩ | ⟨_, _, c, e, e', h⟩ | ⟨e, e'⟩ | ⟨e, e'⟩ <;> simp only [e, e']
    · rw [h]
    · rw [h rfl]
  · rintro rfl s
    unfold map
    cases p s <;> simp [Alike]

private theorem same_iff (p q : Parser I A) : (∀ s, Alike true Eq (p s) (q s)) ↔ q = p := by
  have := image_iff_map id p q
  rw [c03_map_id] at this
  exact this

private theorem twins_map (p : Parser I A) (f : A → B) : Twins true (fun a b => f a = b) p (map p f) := by
  have := Twins.map (exact := true) (S := fun a b => f a = b) (f := id) (f' := f)
    (fun a a' (h : a = a') => by rw [id, h]) (.same p)
  rwa [c03_map_id] at this

private theorem eachRel_map (f : A → B) {l : List A} {l' : List B} (h : EachRel (fun a b => f a = b) l l') :
    l.map f = l' := by
  induction h with
  | nil => rfl
  | cons h _ ih => rw [List.map_cons, h, ih]

/-! ## Functions can be applied to the parts or to the whole -/

theorem c128_or (p q : Parser I A) (f : A → B) : or (map p f) (map q f) = map (or p q) f :=
  (image_iff_map _ _ _).1 (Twins.or (twins_map p f) (twins_map q f)).alike

theorem c128_andThen (p : Parser I A) (q : Parser I A') (f : A → B) (g : A' → B') :
    andThen (map p f) (map q g) = map (andThen p q) (fun x => (f x.1, g x.2)) :=
  (image_iff_map _ _ _).1 (Twins.weaken (fun _ _ h => Prod.ext h.1 h.2)
    (Twins.andThen (twins_map p f) (twins_map q g))).alike

theorem c128_skip (p : Parser I A) (q : Parser I A') (f : A → B) (g : A' → B') :
    skipLeft (map p f) (map q g) = map (skipLeft p q) g ∧ skipRight (map p f) (map q g) = map (skipRight p q) f :=
  ⟨(image_iff_map _ _ _).1 (Twins.skipLeft (twins_map p f) (twins_map q g)).alike,
    (image_iff_map _ _ _).1 (Twins.skipRight (twins_map p f) (twins_map q g)).alike⟩

theorem c128_flatMap (p : Parser I A) (k : A → Parser I A') (f : A' → B) :
    flatMap p (fun a => map (k a) f) = map (flatMap p k) f :=
  (image_iff_map _ _ _).1 (Twins.flatMap (.same p) fun a a' (h : a = a') => h ▸ twins_map (k a) f).alike

theorem c128_opt (p : Parser I A) (f : A → B) : opt (map p f) = map (opt p) (Option.map f) :=
  (image_iff_map _ _ _).1 (Twins.or (Twins.map (R := fun a b => f a = b)
    (S := fun a b => Option.map f a = b) (f := some) (f' := some) (fun _ _ h => congrArg some h)
    (.attempt (twins_map p f))) (.successful rfl)).alike

theorem c128_attempt_peek (p : Parser I A) (f : A → B) :
    attempt (map p f) = map (attempt p) f ∧ peek (map p f) = map (peek p) f :=
  ⟨(image_iff_map _ _ _).1 (Twins.attempt (twins_map p f)).alike, (image_iff_map _ _ _).1 (Twins.peek (twins_map p f)).alike⟩

theorem c128_filter (p : Parser I A) (f : A → B) (g : B → Bool) :
    filter (map p f) g = map (filter p fun a => g (f a)) f :=
  (image_iff_map _ _ _).1 (Twins.filter (fun _ _ h => congrArg g h) (twins_map p f)).alike

/-- Repetition with any range, without and with separators, whose values do not matter. -/
theorem c128_repeat (p : Parser I A) (q : Parser I A') (f : A → B) (g : A' → B') (r : Range) :
    repeat_ (map p f) r = map (repeat_ p r) (List.map f) ∧
      repeatSep (map p f) r (some (map q g)) = map (repeatSep p r (some q)) (List.map f) :=
  ⟨(image_iff_map _ _ _).1 (Twins.weaken (fun _ _ h => eachRel_map f h) (Twins.repeat_ r (twins_map p f))).alike,
    (image_iff_map _ _ _).1 (Twins.weaken (fun _ _ h => eachRel_map f h)
      (Twins.repeatSep r (twins_map p f) (twins_map q g))).alike⟩

theorem c128_many (p : Parser I A) (f : A → B) :
    many0 (map p f) = map (many0 p) (List.map f) ∧ many1 (map p f) = map (many1 p) (List.map f) ∧
      ∀ n, count (map p f) n = map (count p n) (List.map f) :=
  ⟨(c128_repeat p p f f _).1, (c128_repeat p p f f _).1, fun _ => (c128_repeat p p f f _).1⟩

/-- Parsers that forget the values. -/
theorem c128_forget (p : Parser I A) (f : A → B) :
    collect (map p f) = collect p ∧ discard (map p f) = discard p ∧ exists_ (map p f) = exists_ p ∧
      not_ (map p f) = not_ p ∧ lastOffset (map p f) = lastOffset p ∧ nextOffset (map p f) = nextOffset p :=
  ⟨(same_iff _ _).1 (Twins.collect (twins_map p f)).alike, (same_iff _ _).1 (Twins.discard (twins_map p f)).alike,
    (same_iff _ _).1 (Twins.exists_ (twins_map p f)).alike, (same_iff _ _).1 (Twins.not_ (twins_map p f)).alike,
    (same_iff _ _).1 (Twins.lastOffset (twins_map p f)).alike,
    (same_iff _ _).1 (Twins.nextOffset (twins_map p f)).alike⟩

/-- Operator chains: to compute with the values while they are read, or to build a tree and compute with it afterwards,
is the same, with the same errors. `h` is a homomorphism between the operations that the two operator parsers return
side by side. -/
theorem c128_chain (h : A → B) (p : Parser I A) (op : Parser I (A → A → A)) (op' : Parser I (B → B → B))
    (ho : ∀ s, Alike true (fun f f' => ∀ x y, h (f x y) = f' (h x) (h y)) (op s) (op' s)) :
    chainLeft1 (map p h) op' = map (chainLeft1 p op) h ∧ chainRight1 (map p h) op' = map (chainRight1 p op) h ∧
      ∀ x, chainLeft0 (map p h) op' (h x) = map (chainLeft0 p op x) h ∧
        chainRight0 (map p h) op' (h x) = map (chainRight0 p op x) h := by
  have hp := (twins_map p h).alike
  have key : AlikeP true (fun a b => h a = b) (chainLeft1 p op) (chainLeft1 (map p h) op') := by
    refine AlikeP.flatMap hp fun x x' hx s => AlikeP.restLeft1N hp (fun s => ?_) _ _ _ hx s
    rcases (ho s).elim with ⟨_, _, _, e, e', h⟩ | ⟨_, _, c, e, e', h⟩ | ⟨e, e'⟩ | ⟨e, e'⟩ <;> rw [e, e']
    · refine ⟨fun x x' y y' hx hy => ?_, rfl⟩
      rw [h, hx, hy]
    · exact ⟨h, rfl⟩
    · trivial
    · trivial
  have key0 : ∀ x, AlikeP true (fun a b => h a = b) (chainLeft0 p op x) (chainLeft0 (map p h) op' (h x)) :=
    fun x => AlikeP.or key fun s => ⟨rfl, rfl⟩
  exact ⟨(image_iff_map _ _ _).1 key, (image_iff_map _ _ _).1 key,
    fun x => ⟨(image_iff_map _ _ _).1 (key0 x), (image_iff_map _ _ _).1 (key0 x)⟩⟩

/-- Names and expectations, anywhere inside of a parser, change only the errors (C30). -/
theorem c30_anywhere {p p' : Parser I A} (h : Twins false Eq p p') : SameUpToError p p' := by
  intro s
  rcases (h.alike s).elim with ⟨_, _, _, e, e', rfl⟩ | ⟨_, _, c, e, e', h⟩ | ⟨e, e'⟩ | ⟨e, e'⟩ <;> rw [e, e'] <;> simp

/-! ## Cases -/

/-- A digit. -/
def aDigit : Parser Char Char := elmPred Chr.isDigit

/-- Differences as trees. -/
inductive Diff where
  | digit (c : Char)
  | minus (l r : Diff)

/-- The value of a difference. -/
def Diff.value : Diff → Int
  | .digit c => c.toNat - 48
  | .minus l r => l.value - r.value

/-- To compute a difference while it is read, or to read it as a tree and compute it then. -/
example : chainLeft1 (map aDigit fun c => (c.toNat - 48 : Int)) (map (elm '-') fun _ x y => x - y) =
    map (chainLeft1 (map aDigit .digit) (map (elm '-') fun _ => .minus)) Diff.value := by
  have := (c128_chain Diff.value (map aDigit .digit) (map (elm '-') fun _ => .minus)
    (map (elm '-') fun _ x y => x - y) fun s =>
      (Twins.map (fun _ _ (_ : _ = _) _ _ => rfl) (.same (elm '-'))).alike s).1
  rwa [c03_map_comp] at this

example : chainLeft1 (map aDigit fun c => (c.toNat - 48 : Int)) (map (elm '-') fun _ x y => x - y)
    ⟨"9-2-3".toList, 0⟩ = .success 4 5 := by decide

/-- Digits with a name, in a repetition behind an alternative. -/
example : SameUpToError (many0 (or (name aDigit "digit") (expect (elm '.') "point"))) (many0 (or aDigit (elm '.'))) := by
  refine c30_anywhere (.weaken (fun _ _ h => ?_) (.repeat_ _ (.or (.nameLeft _ rfl (.same aDigit))
    (.expectLeft _ rfl (.same (elm '.'))))))
  induction h with
  | nil => rfl
  | cons h _ ih => rw [h, ih]

/-- The codes of the digits in a text. -/
example : many0 (map aDigit Char.toNat) ⟨"12a".toList, 0⟩ = .success [49, 50] 2 := by
  rw [(c128_many aDigit Char.toNat).1]
  decide

end OniComb
