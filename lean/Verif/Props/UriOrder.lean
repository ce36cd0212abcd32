import Verif.Props.Uri
import Mathlib.Order.Basic

/-!
# C111, C112: the order of queries and the text of paths

`partialCmp` is `PartialOrd` of queries; `PartialEq`, which is derived, is equality.
-/

namespace OniComb.Uri
open OniComb OniComb.Uri.Rfc

/-- Alphabetical order of texts: a proper prefix comes first, otherwise the first byte that differs decides. -/
def Alphabetic (s t : Bytes) : Prop :=
  (∃ b r, t = s ++ b :: r) ∨ ∃ p a b s' t', s = p ++ a :: s' ∧ t = p ++ b :: t' ∧ a < b

/-! ### Lemmas -/

private theorem strCmp_lt : ∀ {s t : Bytes}, strCmp s t = .lt → Alphabetic s t
  | [], b :: t, _ => .inl ⟨b, t, rfl⟩
  | [], [], h => by simp [strCmp] at h
  | _ :: _, [], h => by simp [strCmp] at h
  | a :: s, b :: t, h => by
    rw [strCmp] at h
    split at h
    · rename_i hab; exact .inr ⟨[], a, b, s, t, rfl, rfl, hab⟩
    · rename_i h1
      split at h
      · cases h
      · rename_i h2
        have e : a = b := UInt8.le_antisymm (UInt8.not_lt.1 h2) (UInt8.not_lt.1 h1)
        subst e
        rcases strCmp_lt h with ⟨c, r, rfl⟩ | ⟨p, c, d, s', t', rfl, rfl, hcd⟩
        · exact .inl ⟨c, r, rfl⟩
        · exact .inr ⟨a :: p, c, d, s', t', rfl, rfl, hcd⟩

private theorem strCmp_cons (a : UInt8) (s t : Bytes) : strCmp (a :: s) (a :: t) = strCmp s t := by
  rw [strCmp, if_neg (UInt8.lt_irrefl a), if_neg (UInt8.lt_irrefl a)]

private theorem strCmp_append (p s t : Bytes) : strCmp (p ++ s) (p ++ t) = strCmp s t := by
  induction p with
  | nil => rfl
  | cons a p ih => rw [List.cons_append, List.cons_append, strCmp_cons, ih]

private theorem lt_strCmp {s t : Bytes} (h : Alphabetic s t) : strCmp s t = .lt := by
  rcases h with ⟨b, r, rfl⟩ | ⟨p, a, b, s', t', rfl, rfl, hab⟩
  · have := strCmp_append s [] (b :: r)
    rw [List.append_nil] at this
    rw [this]; rfl
  · rw [strCmp_append, strCmp, if_pos hab]

private theorem strCmp_eq : ∀ {s t : Bytes}, strCmp s t = .eq ↔ s = t
  | [], [] => by simp [strCmp]
  | [], _ :: _ => by simp [strCmp]
  | _ :: _, [] => by simp [strCmp]
  | a :: s, b :: t => by
    by_cases h : a = b
    · subst h; rw [strCmp_cons, strCmp_eq]; simp
    · rw [strCmp]
      have : a < b ∨ b < a := by
        rcases Nat.lt_trichotomy a.toNat b.toNat with h1 | h1 | h1
        · exact .inl h1
        · exact absurd (UInt8.toNat_inj.1 h1) h
        · exact .inr h1
      split
      · simp [h]
      · rename_i h1; rw [if_pos (this.resolve_left h1)]; simp [h]

private theorem strCmp_swap : ∀ s t : Bytes, strCmp t s = (strCmp s t).swap
  | [], [] => rfl
  | [], _ :: _ => rfl
  | _ :: _, [] => rfl
  | a :: s, b :: t => by
    rw [strCmp, strCmp]
    by_cases h1 : a < b
    · have h2 : ¬ b < a := fun h => UInt8.lt_asymm h1 h
      rw [if_neg h2, if_pos h1, if_pos h1]; rfl
    · by_cases h2 : b < a
      · rw [if_pos h2, if_neg h1, if_pos h2]; rfl
      · rw [if_neg h2, if_neg h1, if_neg h1, if_neg h2]; exact strCmp_swap s t

private theorem strCmp_trans : ∀ {s t u : Bytes}, strCmp s t = .lt → strCmp t u = .lt → strCmp s u = .lt
  | [], _, [], h1, h2 => by
    rename_i t; cases t <;> simp [strCmp] at h1 h2
  | [], _, _ :: _, _, _ => rfl
  | _ :: _, [], _, h1, _ => by simp [strCmp] at h1
  | _ :: _, _ :: _, [], _, h2 => by simp [strCmp] at h2
  | a :: s, b :: t, c :: u, h1, h2 => by
    rcases Nat.lt_trichotomy a.toNat b.toNat with hab | hab | hab
    · rcases Nat.lt_trichotomy b.toNat c.toNat with hbc | hbc | hbc
      · rw [strCmp, if_pos (UInt8.lt_iff_toNat_lt.2 (Nat.lt_trans hab hbc))]
      · rw [strCmp, if_pos (UInt8.lt_iff_toNat_lt.2 (hbc ▸ hab))]
      · rw [strCmp, if_neg (by rw [UInt8.lt_iff_toNat_lt]; omega), if_pos (UInt8.lt_iff_toNat_lt.2 hbc)] at h2
        cases h2
    · obtain rfl := UInt8.toNat_inj.1 hab
      rw [strCmp_cons] at h1
      rcases Nat.lt_trichotomy a.toNat c.toNat with hbc | hbc | hbc
      · rw [strCmp, if_pos (UInt8.lt_iff_toNat_lt.2 hbc)]
      · obtain rfl := UInt8.toNat_inj.1 hbc
        rw [strCmp_cons] at h2 ⊢
        exact strCmp_trans h1 h2
      · rw [strCmp, if_neg (by rw [UInt8.lt_iff_toNat_lt]; omega), if_pos (UInt8.lt_iff_toNat_lt.2 hbc)] at h2
        cases h2
    · rw [strCmp, if_neg (by rw [UInt8.lt_iff_toNat_lt]; omega), if_pos (UInt8.lt_iff_toNat_lt.2 hab)] at h1
      cases h1

/-! ### C111: the order of queries -/

/-- Any two queries are comparable: one is less if its text comes first in the alphabet, and they are equal in the
order if they have the same text. -/
theorem c111_alphabetic (q r : Query) : (q.partialCmp r = some .lt ↔ Alphabetic q.show r.show) ∧
    (q.partialCmp r = some .gt ↔ Alphabetic r.show q.show) ∧ (q.partialCmp r = some .eq ↔ q.show = r.show) := by
  unfold Query.partialCmp
  simp only [Option.some.injEq]
  refine ⟨⟨strCmp_lt, lt_strCmp⟩, ?_, strCmp_eq⟩
  rw [strCmp_swap r.show q.show]
  constructor
  · intro h; exact strCmp_lt (by cases hc : strCmp r.show q.show <;> rw [hc] at h <;> first | rfl | cases h)
  · intro h; rw [lt_strCmp h]; rfl

/-- The order is total and consistent: exchanging the sides exchanges the answer, and less is transitive. -/
theorem c111_order (q r s : Query) :
    (∃ o, q.partialCmp r = some o ∧ r.partialCmp q = some o.swap) ∧
    (q.partialCmp r = some .lt → r.partialCmp s = some .lt → q.partialCmp s = some .lt) ∧
    (q.partialCmp r = some .eq → q.partialCmp s = r.partialCmp s ∧ s.partialCmp q = s.partialCmp r) := by
  refine ⟨⟨_, rfl, congrArg some (strCmp_swap _ _)⟩, fun h1 h2 => ?_, fun h => ?_⟩
  · exact congrArg some (strCmp_trans (Option.some.inj h1) (Option.some.inj h2))
  · have := (c111_alphabetic q r).2.2.1 h
    unfold Query.partialCmp
    rw [this]
    exact ⟨rfl, rfl⟩

/-- But a query that has a value is equal in the order to another query: the order does not agree with `==`. -/
theorem c111_equal_violated (q : Query) (k v : Bytes) (h : (k, some v) ∈ q.params) :
    ∃ r, r ≠ q ∧ q.partialCmp r = some .eq := by
  obtain ⟨l, m, hl⟩ := List.append_of_mem h
  refine ⟨⟨l ++ (k ++ byte '=' :: v, none) :: m⟩, ?_, ?_⟩
  · intro e
    have := congrArg Query.params e
    rw [hl] at this
    simp at this
  · rw [(c111_alphabetic _ _).2.2]
    unfold Query.show
    rw [hl]
    simp [pairText]

/-- So is the query without parameters. -/
theorem c111_empty_violated : ∃ r : Query, r ≠ ⟨[]⟩ ∧ Query.partialCmp ⟨[]⟩ r = some .eq :=
  ⟨⟨[([], none)]⟩, by simp, (c111_alphabetic _ _).2.2.2 rfl⟩

/-- Queries whose keys and values are in the character set agree with `==`.  (The full property, for all queries, does
not hold: `c111_equal_violated`.) -/
theorem c111_equal_partial (q r : Query) (hq : q.params ≠ []) (hq' : ∀ kv ∈ q.params, PairOk kv)
    (hr : r.params ≠ []) (hr' : ∀ kv ∈ r.params, PairOk kv) : q.partialCmp r = some .eq ↔ q = r := by
  rw [(c111_alphabetic q r).2.2]
  refine ⟨fun h => ?_, fun h => h ▸ rfl⟩
  have h1 := c54_roundtrip q hq hq'
  rw [h, c54_roundtrip r hr hr'] at h1
  cases h1; rfl

/-- In particular the queries of parsed URIs do. -/
theorem c111_parsed_partial {std : Std} (hstd : StdOk std) {s t : Bytes} {u w : Uri} {q r : Query}
    (hs : Uri.parse std s = .ok u) (ht : Uri.parse std t = .ok w) (hq : u.query = some q) (hr : w.query = some r) :
    q.partialCmp r = some .eq ↔ q = r := by
  have key : ∀ {s : Bytes} {u : Uri} {q : Query}, Uri.parse std s = .ok u → u.query = some q →
      q.params ≠ [] ∧ ∀ kv ∈ q.params, PairOk kv := by
    intro s u q h hq
    obtain ⟨t, rest, -, h1⟩ := c50_prefix_partial hstd h
    obtain ⟨_, _, tq, _, -, -, -, h2, -⟩ := h1
    rw [hq] at h2
    obtain ⟨_, -, h3⟩ := h2
    exact h3.2
  exact c111_equal_partial q r (key hs hq).1 (key hs hq).2 (key ht hr).1 (key ht hr).2

example : Query.partialCmp ⟨[(bytes "a", some (bytes "b"))]⟩ ⟨[(bytes "a=b", none)]⟩ = some .eq := by decide +kernel

example : Query.partialCmp ⟨[(bytes "a", none), (bytes "b", none)]⟩ ⟨[(bytes "a", some (bytes "1"))]⟩ = some .lt := by
  decide +kernel

/-! ### C112: the text of paths -/

/-- Parts are printed one behind the other without slashes, so that different paths are printed alike: a path with
several parts, not all but one empty, has the text of a path with one part. -/
theorem c112_joined_violated (ps : List Bytes) (h : ps.length ≠ 1) :
    (Path.absolute ps).show = (Path.absolute [ps.flatten]).show ∧ Path.absolute ps ≠ .absolute [ps.flatten] ∧
    (Path.rootless ps).show = (Path.rootless [ps.flatten]).show ∧ Path.rootless ps ≠ .rootless [ps.flatten] := by
  refine ⟨by simp [Path.show, Path.parts], ?_, by simp [Path.show, Path.parts], ?_⟩ <;>
  · intro e; injection e with e; rw [e] at h; exact h rfl

/-- An absolute path of segments does not begin with a slash. -/
theorem c112_slash_violated (s : Bytes) (ps : List Bytes) (hs : Enc PcharByte s) (hne : s ≠ []) :
    (Path.absolute (s :: ps)).show.head? ≠ some (byte '/') := by
  cases s with
  | nil => exact absurd rfl hne
  | cons b s =>
    intro h
    simp only [Path.show, Path.parts, List.flatten_cons, List.cons_append, List.head?_cons, Option.some.injEq] at h
    subst h
    generalize hb : byte '/' :: s = t at hs
    cases hs with
    | nil => cases hb
    | byte b t h => cases hb; exact absurd h (by decide)
    | pct => exact absurd (List.cons.inj hb).1 (by decide)

private theorem enc_noSlash {s : Bytes} (h : Enc PcharByte s) : byte '/' ∉ s := by
  have hex : ¬ Hex (byte '/') := by decide
  induction h with
  | nil => simp
  | byte b t hb h ih =>
    rw [List.mem_cons]
    rintro (rfl | h')
    · exact absurd hb (by decide)
    · exact ih h'
  | pct a b t h1 h2 h ih =>
    rw [List.mem_cons, List.mem_cons, List.mem_cons]
    rintro (h' | rfl | rfl | h')
    · exact absurd h' (by decide)
    · exact hex h1
    · exact hex h2
    · exact ih h'

private theorem flatten_start {ps : List Bytes} (h : ∀ s ∈ ps, SegmentPart s) : ps.flatten = [] ∧ ps = [] ∨
    ∃ r, ps.flatten = byte '/' :: r := by
  cases ps with
  | nil => exact .inl ⟨rfl, rfl⟩
  | cons s ps =>
    obtain ⟨t, rfl, -⟩ := h s (by simp)
    exact .inr ⟨t ++ ps.flatten, rfl⟩

private theorem split_slash : ∀ {a b x y : Bytes}, byte '/' ∉ a → byte '/' ∉ b → (x = [] ∨ ∃ r, x = byte '/' :: r) →
    (y = [] ∨ ∃ r, y = byte '/' :: r) → a ++ x = b ++ y → a = b ∧ x = y
  | [], [], _, _, _, _, _, _, h => ⟨rfl, h⟩
  | [], c :: b, x, y, _, hb, hx, _, h => by
    rcases hx with rfl | ⟨r, rfl⟩
    · cases h
    · simp only [List.nil_append, List.cons_append, List.cons.injEq] at h
      exact absurd (by rw [h.1]; simp) hb
  | c :: a, [], x, y, ha, _, _, hy, h => by
    rcases hy with rfl | ⟨r, rfl⟩
    · cases h
    · simp only [List.nil_append, List.cons_append, List.cons.injEq] at h
      exact absurd (by rw [h.1]; simp) ha
  | c :: a, d :: b, x, y, ha, hb, hx, hy, h => by
    simp only [List.cons_append, List.cons.injEq] at h
    rw [List.mem_cons, not_or] at ha hb
    obtain ⟨rfl, rfl⟩ := split_slash ha.2 hb.2 hx hy h.2
    exact ⟨by rw [h.1], rfl⟩

private theorem flatten_unique {ps : List Bytes} : ∀ {qs : List Bytes}, (∀ s ∈ ps, SegmentPart s) →
    (∀ s ∈ qs, SegmentPart s) → ps.flatten = qs.flatten → ps = qs := by
  induction ps with
  | nil =>
    intro qs _ hq h
    rcases flatten_start hq with ⟨-, rfl⟩ | ⟨r, h'⟩
    · rfl
    · rw [h'] at h; cases h
  | cons p ps ih =>
    intro qs hp hq h
    cases qs with
    | nil => obtain ⟨t, rfl, -⟩ := hp p (by simp); cases h
    | cons q qs =>
      obtain ⟨a, rfl, ha⟩ := hp p (by simp)
      obtain ⟨b, rfl, hb⟩ := hq q (by simp)
      have hp' : ∀ s ∈ ps, SegmentPart s := fun s hs => hp s (List.mem_cons_of_mem _ hs)
      have hq' : ∀ s ∈ qs, SegmentPart s := fun s hs => hq s (List.mem_cons_of_mem _ hs)
      simp only [List.flatten_cons, List.cons_append, List.cons.injEq, true_and] at h
      obtain ⟨rfl, h2⟩ := split_slash (enc_noSlash ha) (enc_noSlash hb) ((flatten_start hp').imp_left And.left)
        ((flatten_start hq').imp_left And.left) h
      rw [ih hp' hq' h2]

/-- Paths of the RFC, with their slashes in the parts, are determined by their texts.  (The full property, for all
paths that can be built, does not hold: `c112_joined_violated`.) -/
theorem c112_text_partial (s t : Bytes) (p q : Path) (hp : PathText s p) (hq : PathText t q) :
    (p.show = q.show ↔ p = q) ∧ p.show = s ∧ (p.isEmpty = true ↔ s = []) ∧ (p.nonEmpty = true ↔ s ≠ []) := by
  have nonslash : ∀ {ps : List Bytes} {s qs : Bytes}, (∀ s ∈ ps, SegmentPart s) → s ≠ [] → Enc PcharByte s →
      ps.flatten ≠ s ++ qs := by
    intro ps s qs h hne hs he
    cases s with
    | nil => exact hne rfl
    | cons b s =>
      rcases flatten_start h with ⟨h', -⟩ | ⟨r, h'⟩
      · rw [h'] at he; cases he
      · rw [h'] at he
        exact enc_noSlash hs (by rw [← (List.cons.inj he).1]; simp)
  have hshow : p.show = s := by cases p <;> first | exact hp.1.symm | exact absurd hp id
  have hempty : p.isEmpty = true ↔ s = [] := by
    unfold Path.isEmpty
    rw [List.isEmpty_iff]
    cases p with
    | abempty ps =>
      obtain ⟨rfl, h⟩ := hp
      rcases flatten_start h with ⟨h1, h2⟩ | ⟨r, h1⟩
      · exact ⟨fun _ => h1, fun _ => h2⟩
      · refine ⟨fun h2 => ?_, fun h2 => ?_⟩
        · simp only [Path.parts] at h2; rw [h2]; rfl
        · rw [h1] at h2; cases h2
    | rootless ps =>
      obtain ⟨rfl, x, xs, rfl, h1, -⟩ := hp
      simp [Path.parts, h1]
    | absolute | noScheme | empty => exact absurd hp id
  refine ⟨⟨fun h => ?_, fun h => h ▸ rfl⟩, hshow, hempty, ?_⟩
  · cases p with
    | abempty ps =>
      obtain ⟨-, h1⟩ := hp
      cases q with
      | abempty qs => exact congrArg _ (flatten_unique h1 hq.2 h)
      | rootless qs =>
        obtain ⟨-, x, xs, rfl, h2, h3, -⟩ := hq
        exact absurd h (nonslash (qs := xs.flatten) h1 h2 h3)
      | absolute | noScheme | empty => exact absurd hq id
    | rootless ps =>
      obtain ⟨-, x, xs, rfl, h2, h3, h4⟩ := hp
      cases q with
      | abempty qs => exact absurd h.symm (nonslash (qs := xs.flatten) hq.2 h2 h3)
      | rootless qs =>
        obtain ⟨-, y, ys, rfl, h5, h6, h7⟩ := hq
        obtain ⟨rfl, h8⟩ := split_slash (enc_noSlash h3) (enc_noSlash h6) ((flatten_start h4).imp_left And.left)
          ((flatten_start h7).imp_left And.left) h
        rw [flatten_unique h4 h7 h8]
      | absolute | noScheme | empty => exact absurd hq id
    | absolute | noScheme | empty => exact absurd hp id
  · unfold Path.nonEmpty
    rw [ne_eq, ← not_congr hempty]
    simp

/-- The paths of parsed URIs are such paths. -/
theorem c112_parsed {std : Std} (hstd : StdOk std) {s : Bytes} {u : Uri} {p : Path} (hs : Uri.parse std s = .ok u)
    (hp : u.path = some p) : ∃ t, PathText t p := by
  obtain ⟨t, rest, -, h1⟩ := c50_prefix_partial hstd hs
  obtain ⟨_, _, tq, _, -, -, h2, -⟩ := h1
  unfold Uri.path at hp
  cases hh : u.hier with
  | none => rw [hh] at hp; cases hp
  | some h =>
    rw [hh] at hp h2
    cases hp
    obtain ⟨_, -, _, tp, -, -, h3, -⟩ := h2
    exact ⟨tp, h3⟩

/-- A path with an empty part says that it is not empty but is printed as nothing. -/
theorem c112_empty_violated : (Path.absolute [[]]).nonEmpty = true ∧ (Path.absolute [[]]).show = [] := ⟨rfl, rfl⟩

example : (Path.absolute [bytes "a", bytes "b"]).show = bytes "ab" := by decide +kernel

example : PathText (bytes "a/b") (.rootless [bytes "a", bytes "/b"]) :=
  ⟨by decide +kernel, _, _, rfl, by decide, .of_all (by decide), by
    intro s hs; obtain rfl := List.mem_singleton.1 hs; exact ⟨bytes "b", by decide +kernel, .of_all (by decide)⟩⟩

end OniComb.Uri
