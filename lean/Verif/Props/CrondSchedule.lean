import Verif.Model.Crond
import Mathlib.Tactic.IntervalCases

/-!
# C40, C41: iteration over the times of a schedule

The specification is an arbitrary predicate `sat` on instants. `takeItems fuel n` is what `n` calls of
`next` return, each loop being cut after `fuel` tests; the theorems hold for every fuel for which a
result is returned, and the result does not depend on it (`c40_fuel`).
-/

namespace OniComb.Crond
open OniComb

/-- The instants that are tested: whole minutes counted from the start. -/
def tick (i : Interval) (k : Nat) : Int := i.start + k * minuteNs

private theorem tick_succ (i : Interval) (k : Nat) : tick i (k + 1) = tick i k + minuteNs := by
  unfold tick minuteNs; push_cast; omega

private theorem tick_lt {i : Interval} {j k : Nat} : tick i j < tick i k ↔ j < k := by
  unfold tick minuteNs; omega

private theorem tick_inj {i : Interval} {j k : Nat} (h : tick i j = tick i k) : j = k := by
  unfold tick minuteNs at h; omega

private theorem proceedNext_spec {i : Interval} {sat : Int → Bool} :
    ∀ {fuel m : Nat} {it : Iter}, proceedNext sat fuel ⟨tick i m, tick i (m + 1)⟩ = some it →
      ∃ k, m ≤ k ∧ it = ⟨tick i k, tick i (k + 1)⟩ ∧ sat (tick i k) = true ∧
        ∀ j, m ≤ j → j < k → sat (tick i j) = false
  | 0, _, _, h => by simp [proceedNext] at h
  | fuel + 1, m, it, h => by
    rw [proceedNext] at h
    by_cases hs : sat (tick i m) = true
    · simp only [hs, if_true, Option.some.injEq] at h
      exact ⟨m, Nat.le_refl _, h.symm, hs, by intro j h1 h2; omega⟩
    · simp only [hs] at h
      rw [← tick_succ] at h
      obtain ⟨k, h1, h2, h3, h4⟩ := proceedNext_spec (m := m + 1) h
      refine ⟨k, by omega, h2, h3, fun j hj1 hj2 => ?_⟩
      by_cases hj : j = m
      · subst hj; simpa using hs
      · exact h4 j (by omega) hj2

private theorem proceedNext_some {i : Interval} {sat : Int → Bool} {d m : Nat}
    (h : sat (tick i (m + d)) = true) :
    ∃ it, proceedNext sat (d + 1) ⟨tick i m, tick i (m + 1)⟩ = some it := by
  induction d generalizing m with
  | zero =>
    rw [proceedNext]
    rw [Nat.add_zero] at h
    exact ⟨_, if_pos h⟩
  | succ d ih =>
    rw [proceedNext]
    by_cases hs : sat (tick i m) = true
    · exact ⟨_, if_pos hs⟩
    · obtain ⟨it, h1⟩ := ih (m := m + 1) (by rw [Nat.add_right_comm]; exact h)
      refine ⟨it, ?_⟩
      rw [if_neg hs, ← h1, tick_succ i (m + 1)]

private theorem proceedNext_mono {sat : Int → Bool} :
    ∀ {fuel fuel' : Nat} {it it' : Iter}, fuel ≤ fuel' → proceedNext sat fuel it = some it' →
      proceedNext sat fuel' it = some it'
  | 0, _, _, _, _, h => by simp [proceedNext] at h
  | fuel + 1, 0, _, _, hf, _ => by omega
  | fuel + 1, fuel' + 1, it, it', hf, h => by
    rw [proceedNext] at h ⊢
    by_cases hs : sat it.curr = true
    · simpa only [hs, if_true] using h
    · simp only [hs] at h ⊢
      exact proceedNext_mono (by omega) h

private theorem next_mono {i : Interval} {sat : Int → Bool} {fuel fuel' : Nat} {it : Iter} {r}
    (hf : fuel ≤ fuel') (h : i.next sat fuel it = some r) : i.next sat fuel' it = some r := by
  have key : ∀ {x : Iter}, (proceedNext sat fuel x).map (fun it'' => (some it''.curr, it'')) = some r →
      (proceedNext sat fuel' x).map (fun it'' => (some it''.curr, it'')) = some r := by
    intro x hx
    cases hp : proceedNext sat fuel x with
    | none => simp [hp] at hx
    | some y => rw [proceedNext_mono hf hp]; rwa [hp] at hx
  unfold Interval.next at h ⊢
  cases hs : i.stop with
  | none => simp only [hs] at h ⊢; exact key h
  | some e =>
    simp only [hs] at h ⊢
    by_cases he : e ≥ it.next
    · simp only [he, if_true] at h ⊢; exact key h
    · simpa only [he, if_false] using h

private theorem takeItems_mono {i : Interval} {sat : Int → Bool} {fuel fuel' : Nat}
    (hf : fuel ≤ fuel') : ∀ {n : Nat} {it : Iter} {l : List Int},
      i.takeItems sat fuel n it = some l → i.takeItems sat fuel' n it = some l
  | 0, _, _, h => h
  | n + 1, it, l, h => by
    rw [Interval.takeItems] at h ⊢
    cases hn : i.next sat fuel it with
    | none => simp [hn] at h
    | some r =>
      rw [next_mono hf hn]
      rw [hn] at h
      obtain ⟨t, it'⟩ := r
      cases t with
      | none => exact h
      | some t =>
        simp only at h ⊢
        cases ht : i.takeItems sat fuel n it' with
        | none => simp [ht] at h
        | some l' =>
          rw [takeItems_mono hf ht]
          rwa [ht] at h

/-- What a call of `next` at the position `m` does. -/
private theorem next_spec {i : Interval} {sat : Int → Bool} {fuel m : Nat} {it : Iter} {r}
    (hit : it.next = tick i m) (h : i.next sat fuel it = some r) :
    (∃ k, m ≤ k ∧ r = (some (tick i k), ⟨tick i k, tick i (k + 1)⟩) ∧ sat (tick i k) = true ∧
      (∀ j, m ≤ j → j < k → sat (tick i j) = false) ∧ (∀ e, i.stop = some e → tick i m ≤ e)) ∨
    (r.1 = none ∧ ∃ e, i.stop = some e ∧ e < tick i m) := by
  have key : (proceedNext sat fuel ⟨it.next, it.next + minuteNs⟩).map
        (fun it'' => (some it''.curr, it'')) = some r → (∀ e, i.stop = some e → tick i m ≤ e) →
      ∃ k, m ≤ k ∧ r = (some (tick i k), ⟨tick i k, tick i (k + 1)⟩) ∧ sat (tick i k) = true ∧
      (∀ j, m ≤ j → j < k → sat (tick i j) = false) ∧ (∀ e, i.stop = some e → tick i m ≤ e) := by
    intro hx hst
    cases hp : proceedNext sat fuel ⟨it.next, it.next + minuteNs⟩ with
    | none => simp [hp] at hx
    | some y =>
      rw [hp] at hx
      rw [hit, ← tick_succ] at hp
      obtain ⟨k, h1, rfl, h3, h4⟩ := proceedNext_spec hp
      simp only [Option.map_some, Option.some.injEq] at hx
      exact ⟨k, h1, hx.symm, h3, h4, hst⟩
  unfold Interval.next at h
  cases hs : i.stop with
  | none => simp only [hs] at h; left; rw [hs] at key; exact key h (by simp)
  | some e =>
    simp only [hs] at h
    by_cases he : e ≥ it.next
    · simp only [he, if_true] at h
      left
      rw [hs] at key
      refine key h ?_
      rintro e' ⟨⟩
      omega
    · simp only [he, if_false, Option.some.injEq] at h
      right
      subst h
      exact ⟨rfl, e, rfl, by omega⟩

private theorem takeItems_spec {i : Interval} {sat : Int → Bool} {fuel : Nat} :
    ∀ {n m : Nat} {it : Iter} {l : List Int}, it.next = tick i m →
      i.takeItems sat fuel n it = some l →
      ∃ ks : List Nat, l = ks.map (tick i) ∧ ks.Pairwise (· < ·) ∧
        (∀ k ∈ ks, m ≤ k ∧ sat (tick i k) = true) ∧
        (∀ j, m ≤ j → (∃ k ∈ ks, j ≤ k) → sat (tick i j) = true → j ∈ ks) ∧
        ks.length ≤ n ∧ (i.stop = none → ks.length = n) ∧
        (∀ e, i.stop = some e → (∀ k ∈ ks.dropLast, tick i (k + 1) ≤ e) ∧ (ks ≠ [] → tick i m ≤ e) ∧
          (ks.length < n → ∀ j, m ≤ j → tick i j ≤ e → ∃ k ∈ ks, j ≤ k))
  | 0, m, it, l, hit, h => by
    simp only [Interval.takeItems, Option.some.injEq] at h
    subst h
    exact ⟨[], by simp⟩
  | n + 1, m, it, l, hit, h => by
    rw [Interval.takeItems] at h
    cases hn : i.next sat fuel it with
    | none => simp [hn] at h
    | some r =>
      rw [hn] at h
      obtain ⟨k, h1, rfl, h3, h4, h5⟩ | ⟨h1, e, h2, h3⟩ := next_spec hit hn
      · simp only at h
        cases ht : i.takeItems sat fuel n ⟨tick i k, tick i (k + 1)⟩ with
        | none => simp [ht] at h
        | some l' =>
          rw [ht] at h
          simp only [Option.map_some, Option.some.injEq] at h
          obtain ⟨ks, rfl, g2, g3, g4, g5, g6, g7⟩ := takeItems_spec (m := k + 1) rfl ht
          refine ⟨k :: ks, by simpa using h.symm, ?_, ?_, ?_, ?_, ?_, ?_⟩
          · exact List.pairwise_cons.2 ⟨fun a ha => (g3 a ha).1, g2⟩
          · intro a ha
            rcases List.mem_cons.1 ha with rfl | ha
            · exact ⟨h1, h3⟩
            · exact ⟨by have := (g3 a ha).1; omega, (g3 a ha).2⟩
          · rintro j hj ⟨a, ha, hja⟩ hs
            by_cases hjk : j < k
            · rw [h4 j hj hjk] at hs; simp at hs
            · by_cases hjk' : j = k
              · simp [hjk']
              · refine List.mem_cons_of_mem _ (g4 j (by omega) ⟨a, ?_, hja⟩ hs)
                rcases List.mem_cons.1 ha with rfl | ha
                · omega
                · exact ha
          · simpa using g5
          · intro hst; simpa using g6 hst
          · intro e he
            obtain ⟨q1, q2, q3⟩ := g7 e he
            refine ⟨?_, fun _ => h5 e he, ?_⟩
            · cases ks with
              | nil => simp
              | cons b ks =>
                intro a ha
                rw [List.dropLast_cons_cons] at ha
                rcases List.mem_cons.1 ha with rfl | ha
                · exact q2 (by simp)
                · exact q1 a ha
            · intro hl j hj hje
              by_cases hjk : j ≤ k
              · exact ⟨k, by simp, hjk⟩
              · obtain ⟨a, ha, hja⟩ := q3 (by simpa using hl) j (by omega) hje
                exact ⟨a, List.mem_cons_of_mem _ ha, hja⟩
      · obtain ⟨t, it'⟩ := r
        simp only at h1
        subst h1
        simp only [Option.some.injEq] at h
        subst h
        refine ⟨[], by simp, by simp, by simp, by simp, by simp, ?_, ?_⟩
        · intro hst; rw [hst] at h2; simp at h2
        · intro e' he'
          rw [he'] at h2
          simp only [Option.some.injEq] at h2
          subst h2
          refine ⟨by simp, by simp, fun _ j hj hje => ?_⟩
          exfalso
          have : ¬ tick i j < tick i m := by rw [tick_lt]; omega
          omega

private theorem iter_next (i : Interval) : i.iter.next = tick i 0 := by
  simp [Interval.iter, tick]

/-! ## C40: schedules without an end -/

/-- The items do not depend on the fuel. -/
theorem c40_fuel (i : Interval) (sat : Int → Bool) (fuel fuel' n : Nat) (l l' : List Int)
    (h : i.takeItems sat fuel n i.iter = some l) (h' : i.takeItems sat fuel' n i.iter = some l') :
    l = l' := by
  rcases Nat.le_total fuel fuel' with hf | hf
  · have := takeItems_mono hf h; rw [h'] at this; simpa using this.symm
  · have := takeItems_mono hf h'; rw [h] at this; simpa using this

/-- The items are strictly increasing. -/
theorem c40_increasing (i : Interval) (sat : Int → Bool) (fuel n : Nat) (l : List Int)
    (h : i.takeItems sat fuel n i.iter = some l) : l.Pairwise (· < ·) := by
  obtain ⟨ks, rfl, h2, -⟩ := takeItems_spec (iter_next i) h
  exact List.pairwise_map.2 (h2.imp fun hab => tick_lt.2 hab)

/-- Every item satisfies the specification and is a whole number of minutes after the start. -/
theorem c40_sound (i : Interval) (sat : Int → Bool) (fuel n : Nat) (l : List Int)
    (h : i.takeItems sat fuel n i.iter = some l) (t : Int) (ht : t ∈ l) :
    sat t = true ∧ ∃ k : Nat, t = i.start + k * minuteNs := by
  obtain ⟨ks, rfl, -, h3, -⟩ := takeItems_spec (iter_next i) h
  obtain ⟨k, hk, rfl⟩ := List.mem_map.1 ht
  exact ⟨(h3 k hk).2, k, rfl⟩

/-- No satisfying minute before an item is skipped. -/
theorem c40_complete (i : Interval) (sat : Int → Bool) (fuel n : Nat) (l : List Int)
    (h : i.takeItems sat fuel n i.iter = some l) (t : Int) (ht : t ∈ l) (k : Nat)
    (hk : i.start + k * minuteNs ≤ t) (hs : sat (i.start + k * minuteNs) = true) :
    i.start + k * minuteNs ∈ l := by
  obtain ⟨ks, rfl, -, -, h4, -⟩ := takeItems_spec (iter_next i) h
  obtain ⟨a, ha, rfl⟩ := List.mem_map.1 ht
  refine List.mem_map.2 ⟨k, h4 k (Nat.zero_le _) ⟨a, ha, ?_⟩ hs, rfl⟩
  have : ¬ tick i a < tick i k := by change tick i k ≤ _ at hk; omega
  rw [tick_lt] at this
  omega

/-- The iterator of `upcoming` never ends: `n` calls return `n` items. -/
theorem c40_length (start : Int) (sat : Int → Bool) (fuel n : Nat) (l : List Int)
    (h : (upcoming start).takeItems sat fuel n (upcoming start).iter = some l) : l.length = n := by
  obtain ⟨ks, rfl, -, -, -, -, h6, -⟩ := takeItems_spec (iter_next _) h
  simpa using h6 rfl

private theorem takeItems_exists {i : Interval} (hi : i.stop = none) {sat : Int → Bool}
    (hs : ∀ m : Nat, ∃ k, m ≤ k ∧ sat (tick i k) = true) :
    ∀ {n m : Nat} {it : Iter}, it.next = tick i m → ∃ fuel l, i.takeItems sat fuel n it = some l
  | 0, _, _, _ => ⟨0, [], rfl⟩
  | n + 1, m, it, hit => by
    obtain ⟨k, hk, hsk⟩ := hs m
    obtain ⟨it', h1⟩ := proceedNext_some (i := i) (sat := sat) (d := k - m) (m := m)
      (by rw [Nat.add_sub_cancel' hk]; exact hsk)
    obtain ⟨a, -, h2, -, -⟩ := proceedNext_spec h1
    obtain ⟨fuel, l, h3⟩ := takeItems_exists hi hs (n := n) (m := a + 1) (it := it') (by rw [h2])
    refine ⟨max fuel (k - m + 1), it'.curr :: l, ?_⟩
    rw [Interval.takeItems]
    have hn : i.next sat (max fuel (k - m + 1)) it = some (some it'.curr, it') := by
      unfold Interval.next
      simp only [hi]
      rw [hit, ← tick_succ, proceedNext_mono (Nat.le_max_right _ _) h1]
      rfl
    rw [hn]
    simp only
    rw [takeItems_mono (Nat.le_max_left _ _) h3]
    rfl

/-- If satisfying minutes never run out, every number of items is returned. -/
theorem c40_returns (start : Int) (sat : Int → Bool)
    (hs : ∀ m : Nat, ∃ k, m ≤ k ∧ sat ((upcoming start).start + k * minuteNs) = true) (n : Nat) :
    ∃ fuel l, (upcoming start).takeItems sat fuel n (upcoming start).iter = some l :=
  takeItems_exists rfl hs (iter_next _)

private theorem takeItems_count {i : Interval} (hi : i.stop = none) {sat : Int → Bool} :
    ∀ {ks : List Nat} {m : Nat} {it : Iter}, it.next = tick i m → ks.Pairwise (· < ·) →
      (∀ k ∈ ks, m ≤ k ∧ sat (tick i k) = true) → ∃ fuel l, i.takeItems sat fuel ks.length it = some l
  | [], _, _, _, _, _ => ⟨0, [], rfl⟩
  | k :: ks, m, it, hit, hp, hs => by
    obtain ⟨hk, hsk⟩ := hs k (by simp)
    rw [List.pairwise_cons] at hp
    obtain ⟨it', h1⟩ := proceedNext_some (i := i) (sat := sat) (d := k - m) (m := m)
      (by rw [Nat.add_sub_cancel' hk]; exact hsk)
    obtain ⟨a, ham, h2, hsa, hno⟩ := proceedNext_spec h1
    have hak : a ≤ k := by
      by_contra hlt
      rw [hno k hk (by omega)] at hsk
      cases hsk
    obtain ⟨fuel, l, h3⟩ := takeItems_count hi (ks := ks) (m := a + 1) (it := it') (by rw [h2]) hp.2
      fun x hx => ⟨by have := hp.1 x hx; omega, (hs x (List.mem_cons_of_mem _ hx)).2⟩
    refine ⟨max fuel (k - m + 1), it'.curr :: l, ?_⟩
    rw [List.length_cons, Interval.takeItems]
    have hn : i.next sat (max fuel (k - m + 1)) it = some (some it'.curr, it') := by
      unfold Interval.next
      simp only [hi]
      rw [hit, ← tick_succ, proceedNext_mono (Nat.le_max_right _ _) h1]
      rfl
    rw [hn]
    simp only
    rw [takeItems_mono (Nat.le_max_left _ _) h3]
    rfl

/-- As many items are returned as there are satisfying minutes. -/
theorem c40_returns_count (start : Int) (sat : Int → Bool) (ks : List Nat) (hp : ks.Pairwise (· < ·))
    (hs : ∀ k ∈ ks, sat ((upcoming start).start + k * minuteNs) = true) :
    ∃ fuel l, (upcoming start).takeItems sat fuel ks.length (upcoming start).iter = some l :=
  takeItems_count rfl (iter_next _) hp fun k hk => ⟨Nat.zero_le _, hs k hk⟩

/-- The start is the given instant rounded down to the millisecond (a million nanoseconds). -/
theorem c40_start (start : Int) : (upcoming start).start ≤ start ∧
    start < (upcoming start).start + 1000000 ∧ 1000000 ∣ (upcoming start).start := by
  simp only [upcoming, Interval.new, toMillis, milliNs]
  omega

/-- The first item can precede the given instant (by less than a millisecond). -/
theorem c40_before_start_violated : ∃ (start : Int) (sat : Int → Bool) (fuel : Nat) (t : Int),
    (upcoming start).takeItems sat fuel 1 (upcoming start).iter = some [t] ∧ t < start :=
  ⟨1, fun _ => true, 1, 0, by decide +kernel, by decide⟩

/-- That is so for every start that is not a whole millisecond, if the millisecond of the start satisfies the
specification (which looks at nothing shorter than minutes): the first item precedes the start. -/
theorem c40_before_start_general_violated (start : Int) (hd : ¬ 1000000 ∣ start) (sat : Int → Bool)
    (hs : sat (toMillis start) = true) : ∃ t,
    (upcoming start).takeItems sat 1 1 (upcoming start).iter = some [t] ∧ t < start := by
  refine ⟨toMillis start, ?_, ?_⟩
  · simp [Interval.takeItems, upcoming, Interval.new, Interval.next, Interval.iter, proceedNext, hs]
  · unfold toMillis milliNs at *
    omega

/-- If no minute satisfies the specification any more, `next` does not return. -/
theorem c40_hangs (i : Interval) (sat : Int → Bool) (hs : ∀ k : Nat, sat (i.start + k * minuteNs) = false)
    (hb : ∀ e, i.stop = some e → i.start ≤ e) (fuel : Nat) : i.next sat fuel i.iter = none := by
  cases h : i.next sat fuel i.iter with
  | none => rfl
  | some r =>
    exfalso
    obtain ⟨k, -, -, h3, -⟩ | ⟨-, e, h2, h3⟩ := next_spec (iter_next i) h
    · have := hs k
      rw [tick] at h3
      rw [h3] at this
      simp at this
    · have := hb e h2
      simp only [tick] at h3
      omega

/-- Every tenth minute. -/
example : (upcoming 5).takeItems (fun t => t % (10 * minuteNs) == 0) 100 3 (upcoming 5).iter =
    some [0, 600000000000, 1200000000000] := by decide +kernel

/-! ## C41: schedules with an end -/

/-- With an end: all items but the last are before the end, and when the iterator ends, no satisfying
minute up to the end is missing.  (Full claim: also the last item is not after the end.) -/
theorem c41_bounded_partial (i : Interval) (e : Int) (he : i.stop = some e) (sat : Int → Bool)
    (fuel n : Nat) (l : List Int) (h : i.takeItems sat fuel n i.iter = some l) :
    (∀ t ∈ l.dropLast, t < e) ∧
    (l.length < n → ∀ k : Nat, i.start + k * minuteNs ≤ e → sat (i.start + k * minuteNs) = true →
      i.start + k * minuteNs ∈ l) := by
  obtain ⟨ks, rfl, -, -, h4, -, -, h7⟩ := takeItems_spec (iter_next i) h
  obtain ⟨q1, -, q3⟩ := h7 e he
  constructor
  · intro t ht
    rw [← List.map_dropLast] at ht
    obtain ⟨k, hk, rfl⟩ := List.mem_map.1 ht
    have := q1 k hk
    rw [tick_succ] at this
    unfold minuteNs at this
    omega
  · intro hl k hk hs
    exact List.mem_map.2 ⟨k, h4 k (Nat.zero_le _) (q3 (by simpa using hl) k (Nat.zero_le _) hk) hs, rfl⟩

/-- If the last minute up to the end satisfies the specification, no item is after the end. -/
theorem c41_exact_partial (i : Interval) (e : Int) (he : i.stop = some e) (sat : Int → Bool)
    (fuel n : Nat) (l : List Int) (h : i.takeItems sat fuel n i.iter = some l) (k : Nat)
    (h1 : i.start + k * minuteNs ≤ e) (h2 : e < i.start + k * minuteNs + minuteNs)
    (hs : sat (i.start + k * minuteNs) = true) : ∀ t ∈ l, t ≤ e := by
  obtain ⟨ks, rfl, hp, h3, h4, -, -, h7⟩ := takeItems_spec (iter_next i) h
  obtain ⟨q1, -, -⟩ := h7 e he
  intro t ht
  obtain ⟨a, ha, rfl⟩ := List.mem_map.1 ht
  by_cases hak : a ≤ k
  · have : ¬ tick i k < tick i a := by rw [tick_lt]; omega
    have h1' : tick i k ≤ e := h1
    omega
  · -- then `k` is an item before the last one, and the item after it was started behind the end
    exfalso
    have hk := h4 k (Nat.zero_le _) ⟨a, ha, by omega⟩ hs
    have hd : k ∈ ks.dropLast := by
      have hne : ks ≠ [] := List.ne_nil_of_mem hk
      rw [← List.dropLast_concat_getLast hne] at hk ha hp
      rw [List.mem_append] at hk ha
      rcases hk with hk | hk
      · exact hk
      · exfalso
        simp only [List.mem_singleton] at hk
        rcases ha with ha | ha
        · have := (List.pairwise_append.1 hp).2.2 a ha _ (List.mem_singleton.2 rfl)
          omega
        · simp only [List.mem_singleton] at ha; omega
    have := q1 k hd
    rw [tick_succ] at this
    have h2' : e < tick i k + minuteNs := h2
    omega

/-- An item after the end is returned. -/
theorem c41_past_end_violated : ∃ (start stop : Int) (sat : Int → Bool) (fuel : Nat) (t : Int),
    (Interval.new start (some stop)).takeItems sat fuel 1 (Interval.new start (some stop)).iter =
      some [t] ∧ toMillis stop < t :=
  ⟨0, 60000000000, fun t => t == 300000000000, 10, 300000000000, by decide +kernel, by decide +kernel⟩

private theorem takeItems_exists' {i : Interval} {sat : Int → Bool}
    (hs : ∀ m : Nat, (∀ e, i.stop = some e → tick i m ≤ e) → ∃ k, m ≤ k ∧ sat (tick i k) = true) :
    ∀ {n m : Nat} {it : Iter}, it.next = tick i m → ∃ fuel l, i.takeItems sat fuel n it = some l
  | 0, _, _, _ => ⟨0, [], rfl⟩
  | n + 1, m, it, hit => by
    by_cases hm : ∀ e, i.stop = some e → tick i m ≤ e
    · obtain ⟨k, hk, hsk⟩ := hs m hm
      obtain ⟨it', h1⟩ := proceedNext_some (i := i) (sat := sat) (d := k - m) (m := m)
        (by rw [Nat.add_sub_cancel' hk]; exact hsk)
      obtain ⟨a, -, h2, -, -⟩ := proceedNext_spec h1
      obtain ⟨fuel, l, h3⟩ := takeItems_exists' hs (n := n) (m := a + 1) (it := it') (by rw [h2])
      refine ⟨max fuel (k - m + 1), it'.curr :: l, ?_⟩
      rw [Interval.takeItems]
      have hn : i.next sat (max fuel (k - m + 1)) it = some (some it'.curr, it') := by
        unfold Interval.next
        cases hst : i.stop with
        | none =>
          simp only
          rw [hit, ← tick_succ, proceedNext_mono (Nat.le_max_right _ _) h1]
          rfl
        | some e =>
          have := hm e hst
          simp only
          rw [hit, if_pos (show tick i m ≤ e from this), ← tick_succ, proceedNext_mono (Nat.le_max_right _ _) h1]
          rfl
      rw [hn]
      simp only
      rw [takeItems_mono (Nat.le_max_left _ _) h3]
      rfl
    · push Not at hm
      obtain ⟨e, he, hlt⟩ := hm
      refine ⟨0, [], ?_⟩
      rw [Interval.takeItems]
      have hn : i.next sat 0 it = some (none, ⟨it.next, it.next + minuteNs⟩) := by
        unfold Interval.next
        rw [he]
        simp only
        rw [hit, if_neg (by omega)]
      rw [hn]

/-- Where an item of large index lies. -/
private theorem exists_large {ks : List Nat} (hp : ks.Pairwise (· < ·)) :
    ∀ {m : Nat}, m < ks.length → ∃ k ∈ ks, m ≤ k := by
  intro m hm
  have key : ∀ j (hj : j < ks.length), j ≤ ks[j] := by
    intro j
    induction j with
    | zero => intro _; omega
    | succ j ih =>
      intro hj
      have h1 := ih (by omega)
      have h2 := List.pairwise_iff_getElem.1 hp j (j + 1) (by omega) hj (by omega)
      omega
  exact ⟨ks[m], List.getElem_mem hm, key m hm⟩

private theorem past {i : Interval} {e : Int} (he : i.stop = some e) {sat : Int → Bool} {last n : Nat}
    (h2 : e < tick i last + minuteNs) (h1 : tick i last ≤ e)
    (hs : sat (tick i last) = false) (hn : last + 2 ≤ n) {fuel : Nat} {l : List Int}
    (h : i.takeItems sat fuel n i.iter = some l) :
    ∃ k, last < k ∧ sat (tick i k) = true ∧ e < tick i k ∧ tick i k ∈ l := by
  obtain ⟨ks, rfl, hp, h3, h4, hlen, -, h7⟩ := takeItems_spec (iter_next i) h
  obtain ⟨-, -, q3⟩ := h7 e he
  have : ∃ k ∈ ks, last ≤ k := by
    by_cases hl : ks.length < n
    · exact q3 hl last (Nat.zero_le _) h1
    · exact exists_large hp (by omega)
  obtain ⟨k, hk, hle⟩ := this
  have hsk := (h3 k hk).2
  have hne : k ≠ last := by rintro rfl; rw [hs] at hsk; cases hsk
  refine ⟨k, by omega, hsk, ?_, List.mem_map.2 ⟨k, hk, rfl⟩⟩
  have : ¬ tick i k < tick i (last + 1) := by rw [tick_lt]; omega
  rw [tick_succ] at this
  omega

/-- In general: whenever the last minute up to the end does not satisfy the specification but some later one
does, the iterator returns an item after the end (with `c41_exact_partial`: exactly then). -/
theorem c41_past_end_general_violated (i : Interval) (e : Int) (he : i.stop = some e) (sat : Int → Bool)
    (last later : Nat) (h1 : i.start + last * minuteNs ≤ e) (h2 : e < i.start + last * minuteNs + minuteNs)
    (hs : sat (i.start + last * minuteNs) = false) (hl : last < later)
    (hs' : sat (i.start + later * minuteNs) = true) (n : Nat) (hn : last + 2 ≤ n) :
    ∃ fuel l, i.takeItems sat fuel n i.iter = some l ∧ ∃ t ∈ l, e < t := by
  obtain ⟨fuel, l, h⟩ := takeItems_exists' (i := i) (sat := sat) (n := n) (it := i.iter)
    (fun m hm => ⟨later, by
      have hme := hm e he
      have : ¬ tick i (last + 1) ≤ tick i m := by
        rw [tick_succ]
        have h2' : e < tick i last + minuteNs := h2
        omega
      rw [Int.not_le, tick_lt] at this
      omega, hs'⟩) (iter_next i)
  obtain ⟨k, -, -, h3, h4⟩ := past he h2 h1 hs hn h
  exact ⟨fuel, l, h, _, h4, h3⟩

/-- In general: whenever no minute from the last one up to the end on satisfies the specification, the iterator
does not come to its end: collecting it does not return. -/
theorem c41_hangs_general_violated (i : Interval) (e : Int) (he : i.stop = some e) (sat : Int → Bool)
    (last : Nat) (h1 : i.start + last * minuteNs ≤ e) (h2 : e < i.start + last * minuteNs + minuteNs)
    (hs : ∀ k : Nat, last ≤ k → sat (i.start + k * minuteNs) = false) (n : Nat) (hn : last + 2 ≤ n)
    (fuel : Nat) : i.takeItems sat fuel n i.iter = none := by
  cases h : i.takeItems sat fuel n i.iter with
  | none => rfl
  | some l =>
    exfalso
    obtain ⟨k, hk, hsk, -, -⟩ := past he h2 h1 (hs last (Nat.le_refl _)) hn h
    have := hs k (by omega)
    unfold tick at hsk
    rw [hsk] at this
    cases this

/-- The hypotheses hold for an interval of three and a half minutes of which the second satisfies, and then
the tenth. -/
example : (Interval.new 0 (some 210000000000)).takeItems (fun t => t == minuteNs || t == 9 * minuteNs) 10 9
    (Interval.new 0 (some 210000000000)).iter = some [60000000000, 540000000000] ∧
    (0 : Int) + (3 : Nat) * minuteNs ≤ 210000000000 ∧ (210000000000 : Int) < 0 + (3 : Nat) * minuteNs + minuteNs := by
  decide +kernel

/-- A bounded interval without satisfying minutes: `next` does not return. -/
theorem c41_hangs_violated : ∃ (start stop : Int) (sat : Int → Bool), ∀ fuel,
    (Interval.new start (some stop)).next sat fuel (Interval.new start (some stop)).iter = none := by
  refine ⟨0, 60000000000, fun _ => false, fun fuel => c40_hangs _ _ (fun _ => rfl) ?_ fuel⟩
  intro e he
  simp only [Interval.new, Option.map_some, Option.some.injEq] at he
  subst he
  decide +kernel

/-- The hypotheses of `c41_exact_partial` hold for every third minute in the first six minutes. -/
example : (Interval.new 0 (some 360000000000)).takeItems (fun t => t % (3 * minuteNs) == 0) 10 9
    (Interval.new 0 (some 360000000000)).iter = some [0, 180000000000, 360000000000] ∧
    (0 : Int) + (6 : Nat) * minuteNs ≤ 360000000000 ∧ (360000000000 : Int) < 0 + (6 : Nat) * minuteNs + minuteNs := by
  decide +kernel

end OniComb.Crond
