import Verif.Spec.OperatorTable
import Verif.Lemmas.ChainText

/-!
# Operator tables (C136)
-/

namespace OniComb.Operators
open OniComb
variable {I A : Type} [DecidableEq I] {T : Table I A} {Atom : A → List I → Prop}

omit [DecidableEq I] in
theorem opMany_snoc {p : Parser I A} {op : Parser I (A → A → A)} {t s u r rest : List I} {ops : List ((A → A → A) × A)}
    {f : A → A → A} {y : A} (h : OpMany p op t ops r) (hr : r = s ++ (u ++ rest)) (hf : Eats op s f (u ++ rest))
    (hy : Eats p u y rest) : OpMany p op (t ++ (s ++ u)) (ops ++ [(f, y)]) rest := by
  induction h with
  | nil r =>
    have := OpMany.cons (t' := []) (by simpa using hf) (by simpa using hy) (OpMany.nil (p := p) (op := op) rest)
    simpa using this
  | @cons s' t1 t' r' f' y' ops' h1 h2 _ ih =>
    subst hr
    have := OpMany.cons (s := s') (t := t1) (t' := t' ++ (s ++ u)) (rest := rest) (by simpa using h1) (by simpa using h2) (ih rfl)
    simpa using this

theorem applyLeft_snoc (x : A) (ops : List ((A → A → A) × A)) (f : A → A → A) (y : A) :
    applyLeft x (ops ++ [(f, y)]) = f (applyLeft x ops) y := by
  induction ops generalizing x with
  | nil => rfl
  | cons o ops ih => exact ih _

instance (T : Table I A) (k : Nat) : Good (T.op k) := by unfold Table.op; infer_instance

omit [DecidableEq I] in
theorem good_restRight1 (p : Parser I A) (op : Parser I (A → A → A)) [Good p] [Good op] (x : A) : Good (restRight1 p op x) := by
  unfold restRight1; infer_instance

theorem good_level [Good T.atom] {self : Nat → Parser I A} (hs : ∀ k, Good (self k)) : ∀ k, Good (T.level self k)
  | 0 => by
    have := hs T.height
    unfold Table.level
    infer_instance
  | k + 1 => by
    have := good_level hs k
    have := hs (k + 1)
    unfold Table.level
    split
    · have := fun x => good_restRight1 (lazy fun _ => self (k + 1)) (T.op k) x
      infer_instance
    · infer_instance

theorem good_tower [Good T.atom] : ∀ n k, Good (T.tower n k)
  | 0, _ => by unfold Table.tower; infer_instance
  | n + 1, k => good_level (good_tower n) k

omit [DecidableEq I] in
theorem Table.Ok.good (h : T.Ok Atom) : Good T.atom :=
  ⟨built_nice (fun _ _ h => h.elim) h.built, built_tame (fun _ _ h => h.elim) h.built⟩

omit [DecidableEq I] in
theorem eats_op {k : Nat} {t rest : List I} {f : A → A → A} :
    Eats (T.op k) t f rest ↔ ∃ c, t = [c] ∧ T.rank c = some k ∧ f = T.apply c := by
  unfold Table.op
  rw [eats_map]
  constructor
  · rintro ⟨c, h, rfl⟩
    obtain ⟨rfl, hc⟩ := eats_elmPred.1 h
    exact ⟨c, rfl, by simpa using hc, rfl⟩
  · rintro ⟨c, rfl, h, rfl⟩
    exact ⟨c, eats_elmPred.2 ⟨rfl, by simpa using h⟩, rfl⟩

omit [DecidableEq I] in
theorem fail_op {k : Nat} {r : List I} (h : ∀ c u, r = c :: u → T.rank c ≠ some k) : Fail (T.op k) r .uncommitted := by
  unfold Table.op
  exact fail_map.2 (fail_elmPred.2 ⟨rfl, fun c u hr => by simpa using h c u hr⟩)

/-! ## What is read -/

omit [DecidableEq I] in
theorem text_of_many {k : Nat} (hk : T.right k = false) {p : Parser I A} (hp : ∀ w v r, Eats p w v r → Text T Atom k v w)
    {t r : List I} {ops : List ((A → A → A) × A)} (h : OpMany p (T.op k) t ops r) : ∀ {x : A} {v : List I},
    Text T Atom (k + 1) x v → Text T Atom (k + 1) (applyLeft x ops) (v ++ t) := by
  induction h with
  | nil r => intro x v h; rw [List.append_nil]; exact h
  | cons h1 h2 _ ih =>
    intro x v h
    obtain ⟨c, rfl, hc, rfl⟩ := eats_op.1 h1
    have := ih (Text.left hc hk h (hp _ _ _ h2))
    rw [List.append_assoc] at this
    exact this

theorem level_sound (hT : T.Ok Atom) {self : Nat → Parser I A} (hg : ∀ k, Good (self k))
    (hs : ∀ k w v r, Eats (self k) w v r → Text T Atom k v w) : ∀ k w v r, Eats (T.level self k) w v r → Text T Atom k v w
  | 0, w, v, r, h => by
    have := hT.good
    have := hg T.height
    unfold Table.level at h
    rcases eats_or.1 h with h | ⟨-, h⟩
    · exact .atom (hT.only _ _ _ h)
    · unfold surround at h
      obtain ⟨t1, t2, _, rfl, h1, h2⟩ := eats_skipLeft.1 h
      obtain ⟨t3, t4, _, rfl, h3, h4⟩ := eats_skipRight.1 h2
      obtain ⟨rfl, -⟩ := eats_elm.1 h1
      obtain ⟨rfl, -⟩ := eats_elm.1 h4
      exact .brackets (hs _ _ _ _ h3)
  | k + 1, w, v, r, h => by
    have := hT.good
    have := good_level (T := T) hg k
    have := hg (k + 1)
    unfold Table.level at h
    split at h
    · rename_i hk
      have := fun x => good_restRight1 (lazy fun _ => self (k + 1)) (T.op k) x
      obtain ⟨t1, t2, x, rfl, h1, h2⟩ := eats_flatMap.1 h
      have hx := level_sound hT hg hs k _ _ _ h1
      unfold restRight1 at h2
      rcases eats_or.1 h2 with h2 | ⟨-, h2⟩
      · obtain ⟨t3, t4, f, rfl, h3, h4⟩ := eats_flatMap.1 h2
        obtain ⟨y, h5, rfl⟩ := eats_map.1 h4
        obtain ⟨c, rfl, hc, rfl⟩ := eats_op.1 h3
        exact .right hc hk hx (hs _ _ _ _ h5)
      · obtain ⟨rfl, rfl⟩ := eats_successful.1 h2
        rw [List.append_nil]
        exact .up hx
    · rename_i hk
      obtain ⟨t1, x, t2, ops, rfl, h1, h2, rfl, -⟩ := eats_chainLeft1.1 h
      exact text_of_many (by simpa using hk) (level_sound hT hg hs k) h2 (.up (level_sound hT hg hs k _ _ _ h1))

theorem tower_sound (hT : T.Ok Atom) : ∀ n k w v r, Eats (T.tower n k) w v r → Text T Atom k v w
  | 0, k, w, v, r, h => nomatch h
  | n + 1, k, w, v, r, h => by
    have := hT.good
    exact level_sound hT (good_tower n) (tower_sound hT n) k w v r h

/-! ## What is described -/

/-- What may follow an expression of level `k`: the end, a closing bracket, or an operator of rank `k` or above. -/
def Follow (T : Table I A) (k : Nat) (r : List I) : Prop :=
  ∀ c u, r = c :: u → c = T.rp ∨ ∃ j, k ≤ j ∧ T.rank c = some j

omit [DecidableEq I] in
theorem Follow.down {k : Nat} {r : List I} (h : Follow T (k + 1) r) : Follow T k r := fun c u hr =>
  (h c u hr).imp id fun ⟨j, hj, h⟩ => ⟨j, by omega, h⟩

omit [DecidableEq I] in
theorem Follow.stop (hT : T.Ok Atom) {k : Nat} {r : List I} (h : Follow T (k + 1) r) : Fail (T.op k) r .uncommitted :=
  fail_op fun c u hr hc => by
    rcases h c u hr with rfl | ⟨j, hj, h⟩
    · rw [hT.closing] at hc; cases hc
    · rw [hc] at h; cases h; omega

/-- The chain that an expression of a level with operators that associate to the left is. -/
def Chain (T : Table I A) (p : Parser I A) (k : Nat) (v : A) (w r : List I) : Prop :=
  ∃ t1 x t2 ops, w = t1 ++ t2 ∧ Eats p t1 x (t2 ++ r) ∧ OpMany p (T.op k) t2 ops r ∧ v = applyLeft x ops

theorem tower_complete (hT : T.Ok Atom) {k : Nat} {v : A} {w : List I} (h : Text T Atom k v w) :
    (∀ n r, Follow T k r → (w ++ r).length < n → Eats (T.tower n k) w v r) ∧
    ∀ j, k = j + 1 → T.right j = false → ∀ n r, Follow T j r → (w ++ r).length < n + 1 →
      Chain T (T.level (T.tower n) j) j v w r := by
  have hga := hT.good
  have hgt := good_tower (T := T)
  have hgl := fun n => good_level (T := T) (good_tower (T := T) n)
  have ofChain : ∀ {k : Nat} {v : A} {w : List I}, T.right k = false →
      (∀ n r, Follow T k r → (w ++ r).length < n + 1 → Chain T (T.level (T.tower n) k) k v w r) →
      ∀ n r, Follow T (k + 1) r → (w ++ r).length < n → Eats (T.tower n (k + 1)) w v r := by
    intro k v w hk h n r hr hn
    obtain ⟨n, rfl⟩ : ∃ m, n = m + 1 := ⟨n - 1, by omega⟩
    obtain ⟨t1, x, t2, ops, rfl, h1, h2, rfl⟩ := h n r hr.down hn
    have := hgl n k
    rw [Table.tower, Table.level, hk]
    exact eats_chainLeft1.2 ⟨t1, x, t2, ops, rfl, h1, h2, rfl, .inl (hr.stop hT)⟩
  induction h with
  | @atom a w h =>
    refine ⟨fun n r hr hn => ?_, nofun⟩
    obtain ⟨n, rfl⟩ : ∃ m, n = m + 1 := ⟨n - 1, by omega⟩
    rw [Table.tower, Table.level]
    exact eats_or.2 (.inl (hT.reads a w r h fun c u hc => (hr c u hc).imp id fun ⟨j, _, h⟩ => ⟨j, h⟩))
  | @brackets v w h ih =>
    refine ⟨fun n r hr hn => ?_, nofun⟩
    obtain ⟨n, rfl⟩ : ∃ m, n = m + 1 := ⟨n - 1, by omega⟩
    simp only [List.cons_append, List.length_cons, List.length_append, List.length_nil] at hn
    rw [Table.tower, Table.level]
    refine eats_or.2 (.inr ⟨hT.bracket _, ?_⟩)
    have := hgt n T.height
    have h2 := ih.1 n (T.rp :: r) (fun c u hc => by cases hc; exact .inl rfl) (by simp; omega)
    exact Eats.surround (t1 := [T.lp]) (t3 := [T.rp]) (eats_elm.2 ⟨rfl, rfl⟩) h2 (eats_elm.2 ⟨rfl, rfl⟩)
  | @up k v w h ih =>
    have hc : ∀ n r, Follow T k r → (w ++ r).length < n + 1 → Chain T (T.level (T.tower n) k) k v w r :=
      fun n r hr hn => ⟨w, v, [], [], by simp, ih.1 (n + 1) r hr hn, .nil _, rfl⟩
    refine ⟨fun n r hr hn => ?_, fun j hj _ => by cases hj; exact hc⟩
    cases hk : T.right k with
    | false => exact ofChain hk hc n r hr hn
    | true =>
      obtain ⟨n, rfl⟩ : ∃ m, n = m + 1 := ⟨n - 1, by omega⟩
      have := hgl n k
      have := hgt n (k + 1)
      have := fun x => good_restRight1 (lazy fun _ => T.tower n (k + 1)) (T.op k) x
      rw [Table.tower, Table.level, hk]
      refine eats_flatMap.2 ⟨w, [], v, by simp, ih.1 (n + 1) r hr.down hn, ?_⟩
      exact eats_or.2 (.inr ⟨fail_flatMap.2 (.inl (hr.stop hT)), eats_successful.2 ⟨rfl, rfl⟩⟩)
  | @left k c x y v w hc hk hx hy ihx ihy =>
    have hch : ∀ n r, Follow T k r → ((v ++ c :: w) ++ r).length < n + 1 →
        Chain T (T.level (T.tower n) k) k (T.apply c x y) (v ++ c :: w) r := by
      intro n r hr hn
      simp only [List.append_assoc, List.cons_append, List.length_append, List.length_cons] at hn
      obtain ⟨t1, x0, t2, ops, rfl, h1, h2, rfl⟩ := ihx.2 k rfl hk n (c :: (w ++ r))
        (fun d u hd => by cases hd; exact .inr ⟨k, Nat.le_refl _, hc⟩) (by simp; omega)
      refine ⟨t1, x0, t2 ++ c :: w, ops ++ [(T.apply c, y)], by simp, by simpa using h1, ?_, (applyLeft_snoc _ _ _ _).symm⟩
      have := ihy.1 (n + 1) r hr (by simp; omega)
      exact opMany_snoc (s := [c]) (u := w) h2 rfl (eats_op.2 ⟨c, rfl, hc, rfl⟩) this
    exact ⟨ofChain hk hch, fun j hj _ => by cases hj; exact hch⟩
  | @right k c x y v w hc hk hx hy ihx ihy =>
    refine ⟨fun n r hr hn => ?_, fun j hj hj' => by cases hj; rw [hk] at hj'; cases hj'⟩
    obtain ⟨n, rfl⟩ : ∃ m, n = m + 1 := ⟨n - 1, by omega⟩
    simp only [List.append_assoc, List.cons_append, List.length_append, List.length_cons] at hn
    have := hgl n k
    have := hgt n (k + 1)
    have := fun x => good_restRight1 (lazy fun _ => T.tower n (k + 1)) (T.op k) x
    rw [Table.tower, Table.level, hk]
    refine eats_flatMap.2 ⟨v, c :: w, x, rfl, ihx.1 (n + 1) _ (fun d u hd => by
      simp only [List.cons_append, List.cons.injEq] at hd
      exact .inr ⟨k, Nat.le_refl _, hd.1 ▸ hc⟩) (by simp; omega), ?_⟩
    exact eats_or.2 (.inl (eats_flatMap.2 ⟨[c], w, T.apply c, rfl, eats_op.2 ⟨c, rfl, hc, rfl⟩,
      eats_map.2 ⟨y, ihy.1 n r hr (by simp; omega), rfl⟩⟩))

/-! ## Answers -/

omit [DecidableEq I] in
theorem ret_op {k : Nat} {r : List I} : Ret (T.op k) r := ret_map.2 ret_elmPred

theorem level_ret (hT : T.Ok Atom) {self : Nat → Parser I A} (hg : ∀ k, Good (self k)) {m : Nat}
    (hs : ∀ k (r : List I), r.length < m → Ret (self k) r) : ∀ k (r : List I), r.length < m + 1 → Ret (T.level self k) r
  | 0, r, hr => by
    have := hT.good
    have := hg T.height
    unfold Table.level
    refine ret_or.2 ⟨hT.returns r, fun _ => ?_⟩
    unfold surround
    refine ret_skipLeft.2 ⟨ret_elm, fun t v rest e h => ret_skipRight.2 ⟨?_, fun _ _ _ _ _ => ret_elm⟩⟩
    obtain ⟨rfl, -⟩ := eats_elm.1 h
    rw [e] at hr
    exact hs _ _ (by simpa using hr)
  | k + 1, r, hr => by
    have := hT.good
    have := good_level (T := T) hg k
    have := hg (k + 1)
    unfold Table.level
    split
    · have := fun x => good_restRight1 (lazy fun _ => self (k + 1)) (T.op k) x
      refine ret_flatMap.2 ⟨level_ret hT hg hs k r hr, fun t x rest e _ => ret_or.2 ⟨?_, fun _ => nofun⟩⟩
      refine ret_flatMap.2 ⟨ret_op, fun t' f rest' e' h => ret_map.2 ?_⟩
      obtain ⟨c, rfl, -⟩ := eats_op.1 h
      rw [e, e'] at hr
      simp only [List.length_append, List.length_cons, List.length_nil] at hr
      exact hs _ _ (by omega)
    · refine ret_chainLeft1 (ret_many1Sep (fun r' h => level_ret hT hg hs k r' ?_) (fun _ _ => ret_op) (.inr fun t f rest _ h => ?_))
      · have := h.length_le
        omega
      · obtain ⟨c, rfl, -⟩ := eats_op.1 h
        simp

theorem tower_ret (hT : T.Ok Atom) : ∀ n k (r : List I), r.length < n → Ret (T.tower n k) r
  | 0, k, r, h => absurd h (Nat.not_lt_zero _)
  | n + 1, k, r, h => by
    have := hT.good
    exact level_ret hT (good_tower n) (tower_ret hT n) k r h

/-! ## C136 -/

/-- The parser written after an operator table accepts exactly the expressions of the table, with their values. -/
theorem c136_language (T : Table I A) (Atom : A → List I → Prop) (hT : T.Ok Atom) (w : List I) (v : A) (n : Nat)
    (hn : w.length < n) : parse (skipRight (T.tower n T.height) end_) w = .ok v ↔ Text T Atom T.height v w := by
  have := hT.good
  have := good_tower (T := T) n T.height
  rw [parse_end_ok]
  constructor
  · exact fun h => tower_sound hT n T.height w v [] h
  · exact fun h => (tower_complete hT h).1 n [] nofun (by simpa using hn)

/-- All other texts are answered by an error. -/
theorem c136_answers (T : Table I A) (Atom : A → List I → Prop) (hT : T.Ok Atom) (w : List I) (n : Nat)
    (hn : w.length < n) : (∃ v, parse (skipRight (T.tower n T.height) end_) w = .ok v) ∨
    ∃ e, parse (skipRight (T.tower n T.height) end_) w = .err e := by
  have := hT.good
  have := good_tower (T := T) n T.height
  rcases outcomes (skipRight (T.tower n T.height) end_) w with ⟨t, v, rest, rfl, h⟩ | ⟨c, e, h⟩ | h
  · exact .inl ⟨v, by unfold Eats at h; simp only [parse, h, Res.toOut]⟩
  · exact .inr ⟨e, by simp only [parse, h, Res.toOut]⟩
  · exact (h (ret_skipRight.2 ⟨tower_ret hT n T.height w hn, fun _ _ _ _ _ => ret_end⟩)).elim

/-- No expression has two values. -/
theorem c136_unambiguous (T : Table I A) (Atom : A → List I → Prop) (hT : T.Ok Atom) (k : Nat) (w : List I) (v v' : A)
    (h : Text T Atom k v w) (h' : Text T Atom k v' w) : v = v' := by
  have h1 := (tower_complete hT h).1 (w.length + 1) [] nofun (by simp)
  have h2 := (tower_complete hT h').1 (w.length + 1) [] nofun (by simp)
  exact (eats_unique h1 h2 rfl).2.1

omit [DecidableEq I] in
theorem text_up {k j : Nat} (h : k ≤ j) {v : A} {w : List I} (ht : Text T Atom k v w) : Text T Atom j v w := by
  induction h with
  | refl => exact ht
  | step _ ih => exact .up ih

omit [DecidableEq I] in
theorem text_print {t : Tree I A} (ht : t.Valid T Atom) : ∀ k, Text T Atom k (t.value T) (t.print T k) := by
  induction t with
  | leaf a w => exact fun k => text_up (Nat.zero_le k) (.atom ht)
  | node c l r ihl ihr =>
    obtain ⟨⟨j, hj, hc⟩, hl, hr⟩ := ht
    intro k
    have body : Text T Atom (j + 1) (Tree.value T (.node c l r))
        (if T.right j then l.print T j ++ c :: r.print T (j + 1) else l.print T (j + 1) ++ c :: r.print T j) := by
      cases hk : T.right j with
      | true => exact .right hc hk (ihl hl j) (ihr hr (j + 1))
      | false => exact .left hc hk (ihl hl (j + 1)) (ihr hr j)
    simp only [Tree.print, hc, Option.getD_some]
    split
    · rename_i hjk
      exact text_up hjk body
    · exact text_up (Nat.zero_le k) (.brackets (text_up hj body))

/-- A tree printed with brackets only where the ranks ask for them is read back: the value is that of the tree. -/
theorem c136_print (T : Table I A) (Atom : A → List I → Prop) (hT : T.Ok Atom) (t : Tree I A) (ht : t.Valid T Atom) (n : Nat)
    (hn : (t.print T T.height).length < n) :
    parse (skipRight (T.tower n T.height) end_) (t.print T T.height) = .ok (t.value T) :=
  (c136_language T Atom hT _ _ n hn).2 (text_print ht _)

/-! A table: `^` binds tightest and associates to the right, then `*`, then `+` and `-`; operands are digits. -/

def powers : Table Char Int where
  height := 3
  rank c := if c = '^' then some 0 else if c = '*' then some 1 else if c = '+' ∨ c = '-' then some 2 else none
  right k := k == 0
  apply c x y := if c = '^' then x ^ y.toNat else if c = '*' then x * y else if c = '+' then x + y else x - y
  lp := '('
  rp := ')'
  atom := map (elmPred Char.isDigit) fun c => (c.toNat : Int) - 48

def digits (a : Int) (w : List Char) : Prop := ∃ c, w = [c] ∧ c.isDigit = true ∧ a = (c.toNat : Int) - 48

theorem powers_ok : powers.Ok digits where
  built := .map _ _ (.elmPred _)
  reads a w r := by
    rintro ⟨c, rfl, hc, rfl⟩ -
    exact eats_map.2 ⟨c, eats_elmPred.2 ⟨rfl, hc⟩, rfl⟩
  only a w r h := by
    obtain ⟨c, hc, rfl⟩ := eats_map.1 (show Eats powers.atom w a r from h)
    obtain ⟨rfl, hd⟩ := eats_elmPred.1 hc
    exact ⟨c, rfl, hd, rfl⟩
  returns r := (ret_map.2 ret_elmPred : Ret powers.atom r)
  bracket r := (fail_map.2 (fail_elmPred.2 ⟨rfl, fun c u h => by cases h; rfl⟩) : Fail powers.atom ('(' :: r) .uncommitted)
  closing := rfl

def digit (c : Char) : Tree Char Int := .leaf ((c.toNat : Int) - 48) [c]

/-- `8-2^(3*1)^2-(4-1)`. -/
def sample : Tree Char Int :=
  .node '-' (.node '-' (digit '8') (.node '^' (digit '2') (.node '^' (.node '*' (digit '3') (digit '1')) (digit '2'))))
    (.node '-' (digit '4') (digit '1'))

theorem sample_valid : sample.Valid powers digits := by
  have d : ∀ c : Char, c.isDigit = true → (digit c).Valid powers digits := fun c h => ⟨c, rfl, h, rfl⟩
  exact ⟨⟨2, by decide, by decide⟩, ⟨⟨2, by decide, by decide⟩, d _ (by decide), ⟨0, by decide, by decide⟩, d _ (by decide),
    ⟨0, by decide, by decide⟩, ⟨⟨1, by decide, by decide⟩, d _ (by decide), d _ (by decide)⟩, d _ (by decide)⟩,
    ⟨2, by decide, by decide⟩, d _ (by decide), d _ (by decide)⟩

example : sample.print powers 3 = "8-2^(3*1)^2-(4-1)".toList ∧ sample.value powers = -507 := by decide

example : parse (skipRight (powers.tower 18 3) end_) "8-2^(3*1)^2-(4-1)".toList = .ok (-507) :=
  c136_print powers digits powers_ok sample sample_valid 18 (by decide)

example : ∃ e, parse (skipRight (powers.tower 4 3) end_) "8-*".toList = .err e := by
  rcases c136_answers powers digits powers_ok "8-*".toList 4 (by decide) with ⟨v, h⟩ | h
  · have : parse (skipRight (powers.tower 4 3) end_) "8-*".toList ≠ .ok v := by
      intro h
      have e : (match parse (skipRight (powers.tower 4 3) end_) "8-*".toList with | .ok _ => true | _ => false) = false := by
        decide +kernel
      rw [h] at e
      cases e
    exact (this h).elim
  · exact h

/-- With `chain_right1` for `^` the value would be another: 64, not 512. -/
example : parse (skipRight (chainRight1 powers.atom (powers.op 0)) end_) "2^3^2".toList = .ok 64 ∧
    parse (skipRight (powers.tower 6 3) end_) "2^3^2".toList = .ok 512 := by
  constructor <;> decide +kernel

end OniComb.Operators
