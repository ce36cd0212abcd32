import Verif.Spec.CrondSame
import Verif.Props.CrondCalendar

/-!
# C143: what can be written in different ways in a cron expression
-/

namespace OniComb.Crond

/-- The value that `eval` compares with a field, and the largest value it assumes. -/
def fieldEnv (dt : DateTime) : Field → Env
  | .minute => ⟨dt.minute, 59⟩
  | .hour => ⟨dt.hour, 23⟩
  | .day => ⟨dt.day, monthLength dt.year dt.month⟩
  | .month => ⟨dt.month, 12⟩
  | .weekday => ⟨dt.minute, 7⟩

/-- A tree from the trees of its fields. -/
def tree (e : Field → CronExpr) : CronExpr := .cron (e .minute) (e .hour) (e .day) (e .month) (e .weekday)

theorem eval_tree (maxYear : Int) {dt : DateTime} (hv : dt.Valid) :
    (∀ e, eval maxYear dt (tree e) = none) ∨ ∀ e, eval maxYear dt (tree e) =
      match visit (fieldEnv dt .minute) (e .minute), visit (fieldEnv dt .hour) (e .hour), visit (fieldEnv dt .day) (e .day),
        visit (fieldEnv dt .month) (e .month), visit (fieldEnv dt .weekday) (e .weekday) with
      | some a, some b, some c, some d, some e => some (a && b && c && d && e)
      | _, _, _, _, _ => none := by
  by_cases h : dt.year ≤ maxYear ∧ (dt.month = 12 → dt.year < maxYear)
  · right
    intro e
    simp only [eval, tree, c42_days maxYear dt.year dt.month hv.month.1 hv.month.2 h.1 h.2, Int.toNat_natCast, fieldEnv]
    rfl
  · left
    intro e
    have : getDaysFromMonth maxYear dt.year dt.month = none := by
      unfold getDaysFromMonth fromYmd
      by_cases h1 : dt.year ≤ maxYear
      · have h2 : dt.month = 12 := by
          by_cases h2 : dt.month = 12
          · exact h2
          · exact absurd ⟨h1, fun h => absurd h h2⟩ h
        have h3 : maxYear < dt.year + 1 := by
          by_cases h3 : dt.year < maxYear
          · exact absurd ⟨h1, fun _ => h3⟩ h
          · omega
        simp [h2, h3]
      · have h3 : maxYear < dt.year := by omega
        simp only [if_pos h3]
        split <;> simp_all
    simp only [eval, tree, this]

theorem eval_tree_congr {maxYear : Int} {dt : DateTime} (hv : dt.Valid) {e e' : Field → CronExpr}
    (h : ∀ g, visit (fieldEnv dt g) (e g) = visit (fieldEnv dt g) (e' g)) :
    eval maxYear dt (tree e) = eval maxYear dt (tree e') := by
  rcases eval_tree maxYear hv with h1 | h1
  · rw [h1, h1]
  · rw [h1, h1, h, h, h, h, h]

theorem parse_cronText {t : Field → List Char} {e : Field → CronExpr} (h : ∀ g, FieldText g (t g) (e g)) :
    cronParse (cronText t) = .ok (tree e) :=
  (c35_language _ _).2 (.mk (h _) (h _) (h _) (h _) (h _))

/-- The trees of an expression in which one field is replaced. -/
theorem parse_put {f : Field} {t : Field → List Char} (ht : ∀ g, g ≠ f → ∃ e, FieldText g (t g) e) :
    ∃ e : Field → CronExpr, ∀ x a, FieldText f x a →
      cronParse (cronText (put t f x)) = .ok (tree fun g => if g = f then a else e g) := by
  choose e he using ht
  refine ⟨fun g => if h : g ≠ f then e g h else .any, fun x a hx => parse_cronText fun g => ?_⟩
  by_cases hg : g = f
  · subst hg
    simpa only [put, if_true] using hx
  · simpa only [put, if_neg hg, dif_pos (show g ≠ f from hg)] using he g hg

theorem interchangeable_of_visit {f : Field} {x y : List Char} {a b : CronExpr} (hx : FieldText f x a) (hy : FieldText f y b)
    (h : ∀ dt : DateTime, dt.Valid → visit (fieldEnv dt f) a = visit (fieldEnv dt f) b) : Interchangeable f x y := by
  intro t ht
  obtain ⟨e, he⟩ := parse_put ht
  refine ⟨_, _, he x a hx, he y b hy, fun maxYear dt hv => eval_tree_congr hv fun g => ?_⟩
  by_cases hg : g = f
  · subst hg
    simpa only [if_true] using h dt hv
  · simp only [if_neg hg]

/-! ## What interchangeable fields are good for -/

/-- C143: being interchangeable is an equivalence between the texts that are accepted. -/
theorem c143_equivalence (f : Field) (x y z : List Char) :
    ((∃ a, FieldText f x a) → Interchangeable f x x) ∧ (Interchangeable f x y → Interchangeable f y x) ∧
    (Interchangeable f x y → Interchangeable f y z → Interchangeable f x z) := by
  refine ⟨fun ⟨a, h⟩ => interchangeable_of_visit h h fun _ _ => rfl, fun h t ht => ?_, fun h1 h2 t ht => ?_⟩
  · obtain ⟨a, b, h1, h2, h3⟩ := h t ht
    exact ⟨b, a, h2, h1, fun m dt hv => (h3 m dt hv).symm⟩
  · obtain ⟨a, b, h3, h4, h5⟩ := h1 t ht
    obtain ⟨b', c, h6, h7, h8⟩ := h2 t ht
    rw [h4] at h6
    cases h6
    exact ⟨a, c, h3, h7, fun m dt hv => (h5 m dt hv).trans (h8 m dt hv)⟩

/-- C143: all five fields may be replaced at once; the two expressions have the same schedule, in every zone and from every
start, that is, the same items in the same order. -/
theorem c143_schedule (t u : Field → List Char) (e e' : CronExpr) (ht : cronParse (cronText t) = .ok e)
    (hu : cronParse (cronText u) = .ok e') (hf : ∀ f, ∃ a, FieldText f (t f) a) (hf' : ∀ f, ∃ a, FieldText f (u f) a)
    (h : ∀ f, Interchangeable f (t f) (u f)) (maxYear : Int) (clock : Int → DateTime) (hc : ∀ s, (clock s).Valid)
    (i : Interval) (fuel n : Nat) :
    i.takeItems (satisfied maxYear clock e) fuel n i.iter = i.takeItems (satisfied maxYear clock e') fuel n i.iter := by
  have step : ∀ (f : Field) (w : Field → List Char) (a : CronExpr), (∀ g, g ≠ f → ∃ e, FieldText g (w g) e) →
      cronParse (cronText (put w f (t f))) = .ok a → ∃ b, cronParse (cronText (put w f (u f))) = .ok b ∧
      ∀ maxYear dt, dt.Valid → eval maxYear dt a = eval maxYear dt b := by
    intro f w a hw ha
    obtain ⟨a', b, h1, h2, h3⟩ := h f w hw
    rw [h1] at ha
    cases ha
    exact ⟨b, h2, h3⟩
  let w : Nat → Field → List Char := fun k g => match g with
    | .minute => if k < 1 then t .minute else u .minute
    | .hour => if k < 2 then t .hour else u .hour
    | .day => if k < 3 then t .day else u .day
    | .month => if k < 4 then t .month else u .month
    | .weekday => if k < 5 then t .weekday else u .weekday
  have hw : ∀ k g, ∃ e, FieldText g (w k g) e := by
    intro k g
    cases g <;> simp only [w] <;> split <;> first | exact hf _ | exact hf' _
  have go : ∀ f k, put (w k) f (t f) = w k → put (w k) f (u f) = w (k + 1) → ∀ a, cronParse (cronText (w k)) = .ok a →
      ∃ b, cronParse (cronText (w (k + 1))) = .ok b ∧ ∀ maxYear dt, dt.Valid → eval maxYear dt a = eval maxYear dt b := by
    intro f k h1 h2 a ha
    have := step f (w k) a (fun g _ => hw k g) (by rw [h1]; exact ha)
    rwa [h2] at this
  have h0 : w 0 = t := by funext g; cases g <;> rfl
  have h5 : w 5 = u := by funext g; cases g <;> rfl
  have key : ∀ maxYear dt, dt.Valid → eval maxYear dt e = eval maxYear dt e' := by
    obtain ⟨b1, p1, q1⟩ := go .minute 0 (by funext g; cases g <;> rfl) (by funext g; cases g <;> rfl) e (by rw [h0]; exact ht)
    obtain ⟨b2, p2, q2⟩ := go .hour 1 (by funext g; cases g <;> rfl) (by funext g; cases g <;> rfl) b1 p1
    obtain ⟨b3, p3, q3⟩ := go .day 2 (by funext g; cases g <;> rfl) (by funext g; cases g <;> rfl) b2 p2
    obtain ⟨b4, p4, q4⟩ := go .month 3 (by funext g; cases g <;> rfl) (by funext g; cases g <;> rfl) b3 p3
    obtain ⟨b5, p5, q5⟩ := go .weekday 4 (by funext g; cases g <;> rfl) (by funext g; cases g <;> rfl) b4 p4
    rw [show w (4 + 1) = u from h5, hu] at p5
    cases p5
    intro m dt hv
    rw [q1 m dt hv, q2 m dt hv, q3 m dt hv, q4 m dt hv, q5 m dt hv]
  rw [show satisfied maxYear clock e = satisfied maxYear clock e' from funext fun s => by
    unfold satisfied; rw [key maxYear _ (hc s)]]

/-! ## Spelling and order -/

/-- C143: the same items in another spelling (leading zeros, names of days), with or without a comma at the end. -/
theorem c143_spelling (f : Field) (x y : List Char) (es : List CronExpr) (hx : ItemsText f x es) (hy : ItemsText f y es) :
    Interchangeable f x y ∧ Interchangeable f x (y ++ [',']) :=
  ⟨interchangeable_of_visit (.list hx) (.list hy) fun _ _ => rfl,
    interchangeable_of_visit (.list hx) (.listComma hy) fun _ _ => rfl⟩

theorem visitAny_true {env : Env} : ∀ {es : List CronExpr}, (∀ e ∈ es, visit env e ≠ none) →
    visitAny env es = some (es.any fun e => visit env e == some true)
  | [], _ => rfl
  | e :: es, h => by
    have ih := visitAny_true fun x hx => h x (List.mem_cons_of_mem _ hx)
    simp only [visitAny]
    cases hv : visit env e with
    | none => exact absurd hv (h e (by simp))
    | some b => cases b <;> simp [hv, ih]

theorem visit_listTree {env : Env} {es : List CronExpr} (hne : es ≠ []) (h : ∀ e ∈ es, visit env e ≠ none) :
    visit env (listTree es) = some (es.any fun e => visit env e == some true) := by
  match es, hne with
  | [e], _ =>
    simp only [listTree, List.any_cons, List.any_nil, Bool.or_false]
    cases hv : visit env e with
    | none => exact absurd hv (h e (by simp))
    | some b => cases b <;> rfl
  | e :: e' :: es, _ =>
    simp only [listTree, visit]
    exact visitAny_true h

theorem itemsText_ne {f : Field} {x : List Char} {es : List CronExpr} (h : ItemsText f x es) : es ≠ [] := by
  cases h <;> simp

/-- C143: the items of a list in another order, some of them repeated or repetitions left out, if no step is 0. (In the day,
month and weekday fields no step can be 0.) -/
theorem c143_order_partial (f : Field) (x y : List Char) (es es' : List CronExpr) (hx : ItemsText f x es)
    (hy : ItemsText f y es') (h : ∀ e, e ∈ es ↔ e ∈ es') (hz : ∀ e ∈ es, ¬ZeroStep e) : Interchangeable f x y := by
  refine interchangeable_of_visit (.list hx) (.list hy) fun dt _ => ?_
  have wx := wf_items hx
  have wy := wf_items hy
  have np : ∀ e ∈ es, visit (fieldEnv dt f) e ≠ none := fun e he => visit_item_noPanic (wx.2 e he) (hz e he)
  rw [visit_listTree (itemsText_ne hx) np, visit_listTree (itemsText_ne hy) fun e he => np e ((h e).2 he)]
  congr 1
  rw [Bool.eq_iff_iff]
  simp only [List.any_eq_true, h]

/-! ## Fields that denote the same values -/

/-- A list of items, that is, neither `*` nor `*/k`. -/
def Listed (a : CronExpr) : Prop := NoStar a ∧ a ≠ .any

theorem fieldMatches_one {hi now : Nat} {a : CronExpr} (h : NoStar a) (lo lo' : Nat) :
    FieldMatches lo hi now a ↔ FieldMatches lo' hi now a := by
  cases a <;> first | exact h.elim | simp only [FieldMatches]

theorem item_range {f : Field} {a : CronExpr} {now : Nat} (h : WFItem f a) (hm : ItemMatches f.hi now a) :
    f.lo ≤ now ∧ now ≤ f.hi := by
  have val : ∀ {v n}, WFValue f v → valueOf f.hi v = some n → f.lo ≤ n ∧ n ≤ f.hi := by
    intro v n hv hn
    cases hv with
    | value h1 h2 => cases hn; exact ⟨h1, h2⟩
    | last h => cases hn; subst h; decide
  cases h with
  | value h =>
    refine val h ?_
    cases h <;> exact hm
  | range h1 h2 =>
    obtain ⟨x, y, hx, hy, h3, h4⟩ := hm
    have := val h1 hx
    have := val h2 hy
    omega
  | @step a b k h1 h2 h3 =>
    have hm' : ∃ x y, valueOf f.hi a = some x ∧ valueOf f.hi b = some y ∧ x ≤ now ∧ now ≤ y := by
      cases h3 <;>
      · obtain ⟨x, y, s, hx, hy, -, h3, h4, -⟩ := hm
        exact ⟨x, y, hx, hy, h3, h4⟩
    obtain ⟨x, y, hx, hy, h3, h4⟩ := hm'
    have := val h1 hx
    have := val h2 hy
    omega

theorem listed_range {f : Field} {a : CronExpr} {lo now : Nat} (h : WFField f a) (hl : Listed a)
    (hm : FieldMatches lo f.hi now a) : f.lo ≤ now ∧ now ≤ f.hi := by
  cases h with
  | any => exact absurd rfl hl.2
  | per _ => exact hl.1.elim
  | item h =>
    refine item_range h ?_
    cases h with
    | value h => cases h <;> exact hm
    | range _ _ => exact hm
    | step _ _ _ => exact hm
  | list _ h =>
    obtain ⟨e, he, hm⟩ := hm
    exact item_range (h e he) hm

/-- C143: two texts of a field may be written for each other if they denote the same values, provided that steps are not 0,
ends of ranges and steps are numbers, in the day and month fields `*/k` is not used, and in the weekday field neither `*` nor
`*/k`. (In the weekday field this says that the minutes, with which it is compared, are treated alike.) -/
theorem c143_values_partial (f : Field) (x y : List Char) (a b : CronExpr) (hx : FieldText f x a) (hy : FieldText f y b)
    (ha : Plain a) (hb : Plain b) (hs : f = .day ∨ f = .month → NoStar a ∧ NoStar b)
    (hw : f = .weekday → Listed a ∧ Listed b) (h : SameValues f a b) : Interchangeable f x y := by
  refine interchangeable_of_visit hx hy fun dt hv => ?_
  have wa := wf_field hx
  have wb := wf_field hy
  have same : ∀ now hi, (FieldMatches 0 hi now a ↔ FieldMatches 0 hi now b) → visit ⟨now, hi⟩ a = visit ⟨now, hi⟩ b := by
    intro now hi h
    obtain ⟨u, h1, h2⟩ := visit_field (now := now) (hi := hi) wa ha
    obtain ⟨v, h3, h4⟩ := visit_field (now := now) (hi := hi) wb hb
    rw [h1, h3]
    congr 1
    rw [Bool.eq_iff_iff, h2, h4, h]
  cases f with
  | minute => exact same _ _ (h 59 dt.minute rfl (Nat.zero_le _) hv.minute)
  | hour => exact same _ _ (h 23 dt.hour rfl (Nat.zero_le _) hv.hour)
  | day =>
    obtain ⟨na, nb⟩ := hs (.inl rfl)
    refine same _ _ ?_
    rw [fieldMatches_one na 0 1, fieldMatches_one nb 0 1]
    refine h _ dt.day ?_ hv.day.1 hv.day.2
    show 28 ≤ monthLength dt.year dt.month ∧ monthLength dt.year dt.month ≤ 31
    unfold monthLength
    split <;> split <;> omega
  | month =>
    obtain ⟨na, nb⟩ := hs (.inr rfl)
    refine same _ _ ?_
    rw [fieldMatches_one na 0 1, fieldMatches_one nb 0 1]
    exact h 12 dt.month rfl hv.month.1 hv.month.2
  | weekday =>
    obtain ⟨la, lb⟩ := hw rfl
    refine same _ _ ?_
    rw [fieldMatches_one la.1 0 1, fieldMatches_one lb.1 0 1]
    by_cases hr : 1 ≤ dt.minute ∧ dt.minute ≤ 7
    · exact h 7 dt.minute rfl hr.1 hr.2
    · exact ⟨fun h => absurd (listed_range wa la h) hr, fun h => absurd (listed_range wb lb h) hr⟩

/-! ### Laws -/

theorem valueText_wf {f : Field} {x : List Char} {n : Nat} (h : ValueText f x (.value n)) : f.lo ≤ n ∧ n ≤ f.hi := by
  cases wf_value h with
  | value h1 h2 => exact ⟨h1, h2⟩

/-- C143: `a-a` is `a`, `a-b/1` is `a-b`, `a-b/k` is `a` if `k` is larger than the distance of `a` and `b`. -/
theorem c143_ranges (f : Field) (x x' y z : List Char) (a b k : Nat) (hx : ValueText f x (.value a)) (hx' : ValueText f x' (.value a))
    (hy : ValueText f y (.value b)) (hz : ValueText f z (.value k)) :
    Interchangeable f (x ++ '-' :: x') x ∧ (k = 1 → Interchangeable f (x ++ '-' :: y ++ '/' :: z) (x ++ '-' :: y)) ∧
    (a ≤ b → b < a + k → Interchangeable f (x ++ '-' :: y ++ '/' :: z) x) := by
  have one : ∀ {t : List Char} {e : CronExpr}, ItemText f t e → FieldText f t e := fun h => .list (.one h)
  refine ⟨?_, ?_, ?_⟩
  · refine c143_values_partial f _ _ _ _ (one (.range hx hx')) (one (.value hx)) ⟨⟨_, rfl⟩, ⟨_, rfl⟩, .inl rfl⟩ trivial
      (fun _ => ⟨trivial, trivial⟩) (fun _ => ⟨⟨trivial, nofun⟩, trivial, nofun⟩) fun hi now _ _ _ => ?_
    simp only [FieldMatches, ItemMatches, valueOf, Option.some.injEq]
    constructor
    · rintro ⟨_, _, rfl, rfl, h1, h2⟩; omega
    · rintro rfl; exact ⟨_, _, rfl, rfl, Nat.le_refl _, Nat.le_refl _⟩
  · rintro rfl
    refine c143_values_partial f _ _ _ _ (one (.step hx hy hz)) (one (.range hx hy)) ⟨⟨_, rfl⟩, ⟨_, rfl⟩, .inr ⟨_, rfl, by decide⟩⟩
      ⟨⟨_, rfl⟩, ⟨_, rfl⟩, .inl rfl⟩
      (fun _ => ⟨trivial, trivial⟩) (fun _ => ⟨⟨trivial, nofun⟩, trivial, nofun⟩) fun hi now _ _ _ => ?_
    simp only [FieldMatches, ItemMatches, valueOf, Option.some.injEq]
    constructor
    · rintro ⟨_, _, _, rfl, rfl, rfl, h1, h2, -⟩; exact ⟨_, _, rfl, rfl, h1, h2⟩
    · rintro ⟨_, _, rfl, rfl, h1, h2⟩; exact ⟨_, _, _, rfl, rfl, rfl, h1, h2, Nat.one_dvd _⟩
  · intro hab hk
    refine c143_values_partial f _ _ _ _ (one (.step hx hy hz)) (one (.value hx)) ⟨⟨_, rfl⟩, ⟨_, rfl⟩, .inr ⟨_, rfl, by omega⟩⟩ trivial
      (fun _ => ⟨trivial, trivial⟩) (fun _ => ⟨⟨trivial, nofun⟩, trivial, nofun⟩) fun hi now _ _ _ => ?_
    simp only [FieldMatches, ItemMatches, valueOf, Option.some.injEq]
    constructor
    · rintro ⟨_, _, _, rfl, rfl, rfl, h1, h2, h3⟩
      rcases Nat.eq_zero_or_pos (now - a) with h4 | h4
      · omega
      · have := Nat.le_of_dvd h4 h3; omega
    · rintro rfl
      exact ⟨_, _, _, rfl, rfl, rfl, Nat.le_refl _, hab, by simp⟩

theorem fieldMatches_list {lo hi now : Nat} {es : List CronExpr} (hne : es ≠ []) (hw : ∀ e ∈ es, ∃ f, WFItem f e) :
    FieldMatches lo hi now (listTree es) ↔ ∃ e ∈ es, ItemMatches hi now e := by
  match es, hne, hw with
  | [e], _, hw =>
    obtain ⟨f, hw⟩ := hw e (by simp)
    simp only [listTree, List.mem_singleton, exists_eq_left]
    cases hw with
    | value h => cases h <;> simp only [FieldMatches]
    | range _ _ => simp only [FieldMatches]
    | step _ _ _ => simp only [FieldMatches]
  | e :: e' :: es, _, _ => simp only [listTree, FieldMatches]

theorem plain_list {f : Field} {es : List CronExpr} (hw : ∀ e ∈ es, WFItem f e) (hp : ∀ e ∈ es, Plain e) : Plain (listTree es) := by
  match es, hw, hp with
  | [], _, _ => simp [listTree, Plain]
  | [e], _, hp => exact hp e (by simp)
  | e :: e' :: es, hw, hp =>
    intro x hx
    have := hp x hx
    cases hw x hx with
    | value h => cases h <;> trivial
    | range _ _ => exact this
    | step _ _ _ => exact this

theorem listed_list {f : Field} {es : List CronExpr} (hne : es ≠ []) (hw : ∀ e ∈ es, WFItem f e) : Listed (listTree es) := by
  match es, hne, hw with
  | [e], _, hw =>
    cases hw e (by simp) with
    | value h => cases h <;> exact ⟨trivial, nofun⟩
    | range _ _ => exact ⟨trivial, nofun⟩
    | step _ _ _ => exact ⟨trivial, nofun⟩
  | e :: e' :: es, _, _ => exact ⟨trivial, nofun⟩

/-- C143: a list of items may be replaced by any list of items with the same values: ranges by their values or by parts that
cover them, items left out that others contain, ranges without values left out. -/
theorem c143_lists (f : Field) (x y : List Char) (es es' : List CronExpr) (hx : ItemsText f x es) (hy : ItemsText f y es')
    (hp : ∀ e ∈ es, Plain e) (hp' : ∀ e ∈ es', Plain e)
    (h : ∀ hi now, f.Top hi → f.lo ≤ now → now ≤ hi → ((∃ e ∈ es, ItemMatches hi now e) ↔ ∃ e ∈ es', ItemMatches hi now e)) :
    Interchangeable f x y := by
  have wx := (wf_items hx).2
  have wy := (wf_items hy).2
  have lx := listed_list (itemsText_ne hx) wx
  have ly := listed_list (itemsText_ne hy) wy
  refine c143_values_partial f _ _ _ _ (.list hx) (.list hy) (plain_list wx hp) (plain_list wy hp') (fun _ => ⟨lx.1, ly.1⟩)
    (fun _ => ⟨lx, ly⟩) fun hi now h1 h2 h3 => ?_
  rw [fieldMatches_list (itemsText_ne hx) fun e he => ⟨f, wx e he⟩, fieldMatches_list (itemsText_ne hy) fun e he => ⟨f, wy e he⟩]
  exact h hi now h1 h2 h3

/-- C143: `a-b/k` is the list of `a`, `a+k`, `a+2k` and so on up to `b`, in any order. -/
theorem c143_range_values (f : Field) (x y z w : List Char) (a b k : Nat) (l : List Nat) (hx : ValueText f x (.value a))
    (hy : ValueText f y (.value b)) (hz : ValueText f z (.value k)) (hk : k ≠ 0) (hw : ItemsText f w (l.map .value))
    (hl : ∀ n, n ∈ l ↔ ∃ i, n = a + i * k ∧ n ≤ b) : Interchangeable f (x ++ '-' :: y ++ '/' :: z) w := by
  refine c143_lists f _ _ _ _ (.one (.step hx hy hz)) hw (fun e he => ?_) (fun e he => ?_) fun hi now _ _ _ => ?_
  · rw [List.mem_singleton] at he
    subst he
    exact ⟨⟨_, rfl⟩, ⟨_, rfl⟩, .inr ⟨_, rfl, hk⟩⟩
  · obtain ⟨n, -, rfl⟩ := List.mem_map.1 he
    trivial
  · simp only [List.mem_singleton, exists_eq_left, List.mem_map, exists_exists_and_eq_and, ItemMatches, valueOf, Option.some.injEq,
      exists_eq_right, hl]
    constructor
    · rintro ⟨_, _, _, rfl, rfl, rfl, h1, h2, i, hi⟩
      exact ⟨i, by rw [Nat.mul_comm]; omega, h2⟩
    · rintro ⟨i, rfl, h2⟩
      exact ⟨_, _, _, rfl, rfl, rfl, by omega, h2, i, by rw [Nat.mul_comm]; omega⟩

/-- C143: two ranges that meet or overlap are one range. -/
theorem c143_join (f : Field) (x y z w u v : List Char) (a b c d : Nat) (hx : ValueText f x (.value a)) (hy : ValueText f y (.value b))
    (hz : ValueText f z (.value c)) (hw : ValueText f w (.value d)) (hu : ValueText f u (.value a)) (hv : ValueText f v (.value d))
    (h1 : a ≤ c) (h2 : c ≤ b + 1) (h3 : b ≤ d) :
    Interchangeable f (x ++ '-' :: y ++ ',' :: (z ++ '-' :: w)) (u ++ '-' :: v) := by
  refine c143_lists f _ _ _ _ (.cons (.range hx hy) (.one (.range hz hw))) (.one (.range hu hv)) (fun e he => ?_) (fun e he => ?_)
    fun hi now _ _ _ => ?_
  · simp only [List.mem_cons, List.not_mem_nil, or_false] at he
    rcases he with rfl | rfl <;> exact ⟨⟨_, rfl⟩, ⟨_, rfl⟩, .inl rfl⟩
  · rw [List.mem_singleton] at he
    subst he
    exact ⟨⟨_, rfl⟩, ⟨_, rfl⟩, .inl rfl⟩
  · simp only [List.mem_cons, List.not_mem_nil, or_false, exists_eq_or_imp, exists_eq_left, ItemMatches, valueOf,
      Option.some.injEq, exists_and_left, exists_eq_left', exists_eq_left]
    omega

/-- C143: `*` is the range of all values and `*/1`, except in the weekday field; `*/k` is the range with that step for minutes
and hours. -/
theorem c143_star (f : Field) (hf : f ≠ .weekday) (x y z : List Char) (k : Nat) (hx : ValueText f x (.value f.lo))
    (hy : ValueText f y (.value f.hi)) (hz : ValueText f z (.value k)) :
    Interchangeable f ['*'] (x ++ '-' :: y) ∧ (k = 1 → Interchangeable f ['*'] ('*' :: '/' :: z)) ∧
    (f.lo = 0 → k ≠ 0 → Interchangeable f ('*' :: '/' :: z) (x ++ '-' :: y ++ '/' :: z)) := by
  have top : ∀ hi, f.Top hi → hi ≤ f.hi := by
    intro hi h
    cases f <;> simp only [Field.Top, Field.hi] at h ⊢ <;> omega
  refine ⟨?_, ?_, ?_⟩
  · refine c143_values_partial f _ _ _ _ .any (.list (.one (.range hx hy))) trivial ⟨⟨_, rfl⟩, ⟨_, rfl⟩, .inl rfl⟩
      (fun _ => ⟨trivial, trivial⟩) (fun h => absurd h hf) fun hi now h1 h2 h3 => ?_
    have := top hi h1
    simp only [listTree, FieldMatches, ItemMatches, valueOf, Option.some.injEq, true_iff]
    exact ⟨_, _, rfl, rfl, h2, by omega⟩
  · rintro rfl
    refine interchangeable_of_visit .any (.per hz) fun dt hv => ?_
    obtain ⟨l, h1, h2⟩ := stepBy_some (a := 0) (b := (fieldEnv dt f).max) (p := 1) (by decide)
    simp only [visit, h1, Option.map_some, Option.some.injEq]
    refine ((h2 _).2 ⟨Nat.zero_le _, ?_, Nat.one_dvd _⟩).symm
    cases f with
    | minute => exact hv.minute
    | hour => exact hv.hour
    | day => exact hv.day.2
    | month => exact hv.month.2
    | weekday => exact absurd rfl hf
  · intro h0 hk
    have hd : ¬(f = .day ∨ f = .month) := by rintro (rfl | rfl) <;> cases h0
    refine c143_values_partial f _ _ _ _ (.per hz) (.list (.one (.step hx hy hz))) ⟨_, rfl, hk⟩ ⟨⟨_, rfl⟩, ⟨_, rfl⟩, .inr ⟨_, rfl, hk⟩⟩
      (fun h => absurd h hd) (fun h => absurd h hf) fun hi now h1 h2 h3 => ?_
    have := top hi h1
    simp only [listTree, FieldMatches, ItemMatches, valueOf, Option.some.injEq]
    constructor
    · rintro ⟨_, rfl, h4, h5, h6⟩; exact ⟨_, _, _, rfl, rfl, rfl, h4, by omega, h6⟩
    · rintro ⟨_, _, _, rfl, rfl, rfl, h4, h5, h6⟩; exact ⟨_, rfl, h4, h3, h6⟩

/-! ## Where the same values do not mean the same -/

theorem eval_star {f : Field} {a : CronExpr} {maxYear : Int} {dt : DateTime} (hv : dt.Valid) (hy : dt.year < maxYear) :
    eval maxYear dt (tree fun g => if g = f then a else .any) = visit (fieldEnv dt f) a := by
  cases f <;>
  · simp only [eval, tree, c42_days maxYear dt.year dt.month hv.month.1 hv.month.2 (by omega) (by omega), Int.toNat_natCast,
      fieldEnv, if_true, reduceCtorEq, if_false, visit]
    cases visit _ a <;> simp

theorem not_interchangeable {f : Field} {x y : List Char} {a b : CronExpr} (hx : FieldText f x a) (hy : FieldText f y b)
    {dt : DateTime} (hv : dt.Valid) (h : visit (fieldEnv dt f) a ≠ visit (fieldEnv dt f) b) : ¬Interchangeable f x y := by
  intro hi
  obtain ⟨u, v, h1, h2, h3⟩ := hi (fun _ => ['*']) fun g _ => ⟨.any, .any⟩
  have key : ∀ {z c}, FieldText f z c → cronParse (cronText (put (fun _ => ['*']) f z)) = .ok (tree fun g => if g = f then c else .any) := by
    intro z c hz
    refine parse_cronText fun g => ?_
    by_cases hg : g = f
    · subst hg
      simpa only [put, if_true] using hz
    · simpa only [put, if_neg hg] using FieldText.any
  rw [key hx] at h1
  rw [key hy] at h2
  cases h1
  cases h2
  have := h3 (dt.year + 1) dt hv
  rw [eval_star hv (by omega), eval_star hv (by omega)] at this
  exact h this

/-- C143 is violated in the weekday field: `*`, `1-7` and `*/1` denote all days of the week, but only `*` accepts the
minutes from 8 on. -/
theorem c143_weekday_violated (x y : List Char) (hx : ValueText .weekday x (.value 1)) (hy : ValueText .weekday y (.value 7)) :
    (SameValues .weekday .any (.range (.value 1) (.value 7) .noOp) ∧ ¬Interchangeable .weekday ['*'] (x ++ '-' :: y)) ∧
    (SameValues .weekday .any (.per .any (.value 1)) ∧ ¬Interchangeable .weekday ['*'] ('*' :: '/' :: x)) ∧
    ¬Interchangeable .weekday (x ++ '-' :: y) ('*' :: '/' :: x) := by
  have late : (⟨2024, 1, 1, 10, 30, 2⟩ : DateTime).Valid := ⟨by decide, by decide, by decide, by decide⟩
  have full : (⟨2024, 1, 1, 10, 0, 2⟩ : DateTime).Valid := ⟨by decide, by decide, by decide, by decide⟩
  refine ⟨⟨?_, not_interchangeable .any (.list (.one (.range hx hy))) late (by decide +kernel)⟩,
    ⟨?_, not_interchangeable .any (.per hx) late (by decide +kernel)⟩,
    not_interchangeable (.list (.one (.range hx hy))) (.per hx) full (by decide +kernel)⟩
  · rintro hi now rfl h1 h2
    simp only [FieldMatches, ItemMatches, valueOf, Option.some.injEq, true_iff]
    exact ⟨_, _, rfl, rfl, h1, h2⟩
  · rintro hi now rfl h1 h2
    simp only [FieldMatches, valueOf, Option.some.injEq, true_iff]
    exact ⟨_, rfl, h1, h2, Nat.one_dvd _⟩

/-- C143 is violated in the day and month fields: `*/k` counts from 0, the range of all values with the same step from 1. -/
theorem c143_step_violated (f : Field) (hf : f = .day ∨ f = .month) (x y z : List Char) (k : Nat) (hk : 2 ≤ k)
    (hx : ValueText f x (.value f.lo)) (hy : ValueText f y (.value f.hi)) (hz : ValueText f z (.value k)) :
    SameValues f (.per .any (.value k)) (.range (.value f.lo) (.value f.hi) (.value k)) ∧
    ¬Interchangeable f ('*' :: '/' :: z) (x ++ '-' :: y ++ '/' :: z) := by
  have first : (⟨2024, 1, 1, 10, 30, 2⟩ : DateTime).Valid := ⟨by decide, by decide, by decide, by decide⟩
  constructor
  · intro hi now h1 h2 h3
    have : hi ≤ f.hi := by rcases hf with rfl | rfl <;> simp only [Field.Top, Field.hi] at h1 ⊢ <;> omega
    simp only [FieldMatches, ItemMatches, valueOf, Option.some.injEq]
    constructor
    · rintro ⟨_, rfl, h4, h5, h6⟩; exact ⟨_, _, _, rfl, rfl, rfl, h4, by omega, h6⟩
    · rintro ⟨_, _, _, rfl, rfl, rfl, h4, h5, h6⟩; exact ⟨_, rfl, h4, h3, h6⟩
  · refine not_interchangeable (.per hz) (.list (.one (.step hx hy hz))) first fun h => ?_
    have now : (fieldEnv ⟨2024, 1, 1, 10, 30, 2⟩ f).now = 1 := by rcases hf with rfl | rfl <;> rfl
    have lo : f.lo = 1 := by rcases hf with rfl | rfl <;> rfl
    have hi : 1 ≤ f.hi := by rcases hf with rfl | rfl <;> decide
    obtain ⟨l, h1, h2⟩ := stepBy_some (a := 0) (b := (fieldEnv ⟨2024, 1, 1, 10, 30, 2⟩ f).max) (p := k) (by omega)
    obtain ⟨l', h3, h4⟩ := stepBy_some (a := f.lo) (b := f.hi) (p := k) (by omega)
    simp only [listTree, visit, h1, h3, Option.map_some, Option.some.injEq, now] at h
    have := (h2 1).1 (h.trans ((h4 1).2 ⟨by omega, hi, by simp [lo]⟩))
    have := Nat.le_of_dvd (by decide) this.2.2
    omega

/-- C143 is violated by steps of 0: whether the evaluation panics depends on the order of the items. -/
theorem c143_order_violated (f : Field) (x y z w : List Char) (a b c : Nat) (hx : ValueText f x (.value a)) (hy : ValueText f y (.value b))
    (hz : ValueText f z (.value 0)) (hw : ValueText f w (.value c)) :
    ¬Interchangeable f (w ++ ',' :: (x ++ '-' :: y ++ '/' :: z)) (x ++ '-' :: y ++ '/' :: z ++ ',' :: w) := by
  have hc := valueText_wf hw
  have h0 := valueText_wf hz
  have : ∃ dt : DateTime, dt.Valid ∧ (fieldEnv dt f).now = c := by
    cases f with
    | minute => exact ⟨⟨2024, 1, 1, 10, c, 2⟩, ⟨by simp, by simp [monthLength], by simp, hc.2⟩, rfl⟩
    | hour => exact ⟨⟨2024, 1, 1, c, 10, 2⟩, ⟨by simp, by simp [monthLength], hc.2, by simp⟩, rfl⟩
    | _ => exact absurd h0.1 (by decide)
  obtain ⟨dt, hv, hn⟩ := this
  refine not_interchangeable (.list (.cons (.value hw) (.one (.step hx hy hz)))) (.list (.cons (.step hx hy hz) (.one (.value hw)))) hv ?_
  simp [listTree, visit, visitAny, stepBy, hn]

/-! ## Cases -/

private theorem num {f : Field} (hf : f ≠ .weekday) {t : List Char} {n : Nat} (h : Digits t n) (h1 : f.lo ≤ n) (h2 : n ≤ f.hi) :
    ValueText f t (.value n) := .number hf h h1 h2

private theorem two (c d : Char) (h1 : '0'.toNat ≤ c.toNat) (h2 : c.toNat ≤ '9'.toNat) (h3 : '0'.toNat ≤ d.toNat) (h4 : d.toNat ≤ '9'.toNat) :
    Digits [c, d] (10 * (c.toNat - '0'.toNat) + (d.toNat - '0'.toNat)) := .two h1 h2 h3 h4

-- `5-7,8-10` and `05-10` in the hour field.
example : Interchangeable .hour "5-7,8-10".toList "05-10".toList :=
  c143_join .hour ['5'] ['7'] ['8'] ['1', '0'] ['0', '5'] ['1', '0'] 5 7 8 10
    (num (by decide) (.one (by decide) (by decide)) (by decide) (by decide))
    (num (by decide) (.one (by decide) (by decide)) (by decide) (by decide))
    (num (by decide) (.one (by decide) (by decide)) (by decide) (by decide))
    (num (by decide) (two '1' '0' (by decide) (by decide) (by decide) (by decide)) (by decide) (by decide))
    (num (by decide) (two '0' '5' (by decide) (by decide) (by decide) (by decide)) (by decide) (by decide))
    (num (by decide) (two '1' '0' (by decide) (by decide) (by decide) (by decide)) (by decide) (by decide))
    (by decide) (by decide) (by decide)

-- `MON,L` and `7,2,L` in the weekday field.
example : Interchangeable .weekday "MON,L".toList "7,2,L".toList := by
  refine c143_lists .weekday _ _ [.value 2, .last] [.value 7, .value 2, .last] ?_ ?_ ?_ ?_ ?_
  · exact .cons (t := ['M', 'O', 'N']) (.value (.name (by decide))) (.one (.value .last))
  · exact .cons (t := ['7']) (.value (.weekday (.one (by decide) (by decide)) (by decide) (by decide)))
      (.cons (t := ['2']) (.value (.weekday (.one (by decide) (by decide)) (by decide) (by decide))) (.one (.value .last)))
  · intro e he; simp only [List.mem_cons, List.not_mem_nil, or_false] at he; rcases he with rfl | rfl <;> trivial
  · intro e he; simp only [List.mem_cons, List.not_mem_nil, or_false] at he; rcases he with rfl | rfl | rfl <;> trivial
  · rintro hi now rfl h1 h2
    simp [ItemMatches, valueOf, Field.hi]
    omega

private theorem d1 {f : Field} (hf : f ≠ .weekday) (c : Char) (h1 : '0'.toNat ≤ c.toNat) (h2 : c.toNat ≤ '9'.toNat)
    (h3 : f.lo ≤ c.toNat - '0'.toNat) (h4 : c.toNat - '0'.toNat ≤ f.hi) : ValueText f [c] (.value (c.toNat - '0'.toNat)) :=
  num hf (.one h1 h2) h3 h4

private theorem d2 {f : Field} (hf : f ≠ .weekday) (c d : Char) (h1 : '0'.toNat ≤ c.toNat) (h2 : c.toNat ≤ '9'.toNat)
    (h3 : '0'.toNat ≤ d.toNat) (h4 : d.toNat ≤ '9'.toNat) (h5 : f.lo ≤ 10 * (c.toNat - '0'.toNat) + (d.toNat - '0'.toNat))
    (h6 : 10 * (c.toNat - '0'.toNat) + (d.toNat - '0'.toNat) ≤ f.hi) :
    ValueText f [c, d] (.value (10 * (c.toNat - '0'.toNat) + (d.toNat - '0'.toNat))) := num hf (two c d h1 h2 h3 h4) h5 h6

-- `*/30` and `30,0` in the minute field: steps, values, order.
private theorem halves : Interchangeable .minute "*/30".toList "30,0".toList := by
  have n0 : ValueText .minute ['0'] (.value 0) := d1 (by decide) '0' (by decide) (by decide) (by decide) (by decide)
  have n30 : ValueText .minute ['3', '0'] (.value 30) :=
    d2 (by decide) '3' '0' (by decide) (by decide) (by decide) (by decide) (by decide) (by decide)
  have n59 : ValueText .minute ['5', '9'] (.value 59) :=
    d2 (by decide) '5' '9' (by decide) (by decide) (by decide) (by decide) (by decide) (by decide)
  refine (c143_equivalence .minute _ _ _).2.2 ((c143_star .minute (by decide) _ _ _ 30 n0 n59 n30).2.2 rfl (by decide)) ?_
  refine c143_range_values .minute _ _ _ _ 0 59 30 [30, 0] n0 n59 n30 (by decide) (.cons (.value n30) (.one (.value n0))) fun n => ?_
  simp only [List.mem_cons, List.not_mem_nil, or_false]
  constructor
  · rintro (rfl | rfl)
    · exact ⟨1, rfl, by decide⟩
    · exact ⟨0, rfl, by decide⟩
  · rintro ⟨i, rfl, h⟩
    omega

-- So `*/30 * * * *` and `30,0 * * * *` have the same schedule.
example (maxYear offset : Int) (clock : Int → DateTime) (hc : Clock clock offset) (start : Int) (fuel n : Nat) :
    ∃ e e', cronParse "*/30 * * * *".toList = .ok e ∧ cronParse "30,0 * * * *".toList = .ok e' ∧
      (upcoming start).takeItems (satisfied maxYear clock e) fuel n (upcoming start).iter =
        (upcoming start).takeItems (satisfied maxYear clock e') fuel n (upcoming start).iter := by
  have any : ∀ f, FieldText f ['*'] .any := fun f => .any
  have all : ∀ f, Interchangeable f ['*'] ['*'] := fun f => (c143_equivalence f _ [] []).1 ⟨_, any f⟩
  have n0 : ValueText .minute ['0'] (.value 0) := d1 (by decide) '0' (by decide) (by decide) (by decide) (by decide)
  have n30 : ValueText .minute ['3', '0'] (.value 30) :=
    d2 (by decide) '3' '0' (by decide) (by decide) (by decide) (by decide) (by decide) (by decide)
  refine ⟨.cron (.per .any (.value 30)) .any .any .any .any, .cron (.list [.value 30, .value 0]) .any .any .any .any, rfl, rfl, ?_⟩
  exact c143_schedule (put (fun _ => ['*']) .minute "*/30".toList) (put (fun _ => ['*']) .minute "30,0".toList) _ _ rfl rfl
    (fun f => by
      cases f
      · exact ⟨_, .per n30⟩
      all_goals exact ⟨_, any _⟩)
    (fun f => by
      cases f
      · exact ⟨_, .list (.cons (.value n30) (.one (.value n0)))⟩
      all_goals exact ⟨_, any _⟩)
    (fun f => by
      cases f
      · exact halves
      all_goals exact all _) maxYear clock hc.valid _ fuel n

end OniComb.Crond
