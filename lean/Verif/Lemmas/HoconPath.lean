import Verif.Lemmas.HoconParse
import Verif.Lemmas.HoconExpand

/-! # Helper lemmas: lookup by path -/

namespace OniComb.Hocon
open OniComb OniComb.Hocon.Spec
open OniComb.Uri (Bytes byte bytes)

theorem checkPath_ne (p : Bytes) : checkPath p ≠ .diverge := by
  have h : Ret key p := Halts.out p
  have hs := Good.safe key ⟨p, 0⟩ (Nat.zero_le _)
  unfold checkPath parse
  unfold Ret at h
  cases hk : key ⟨p, 0⟩ <;> simp_all [Res.toOut]

theorem checkPath_ok {p : Bytes} (h : PathText p) : checkPath p = .ok () := by
  have := eats_key (b1 := []) (b2 := []) (rest := []) h gap_nil blanks_nil noHead_nil noHead_nil
  simp only [List.nil_append, List.append_nil, Eats] at this
  unfold checkPath parse
  rw [this]
  rfl

theorem splitDot_mem {k s : Bytes} (h : s ∈ splitDot k) : byte '.' ∉ s := by
  induction k generalizing s with
  | nil => simp [splitDot] at h; simp [h]
  | cons b k ih =>
    simp only [splitDot] at h
    split at h
    · rcases List.mem_cons.1 h with rfl | h
      · simp
      · exact ih h
    · next hb =>
      cases hs : splitDot k with
      | nil => exact absurd hs (splitDot_ne k)
      | cons s' ss =>
        rw [hs] at h
        dsimp only at h
        rcases List.mem_cons.1 h with rfl | h
        · simp only [List.mem_cons, not_or]
          exact ⟨fun h' => hb h'.symm, ih (by rw [hs]; simp)⟩
        · exact ih (by rw [hs]; simp [h])

theorem getValueN_ok : ∀ (n : Nat) (v : Value) (p : Bytes) (r : Option Value),
    getValueN n v p = .ok r → r = descend (splitDot p) v
  | 0, _, _, _, h => by cases h
  | n + 1, v, p, r, h => by
    simp only [getValueN] at h
    obtain ⟨_, -, h⟩ := bind_eq_ok.1 h
    cases hs : splitDot p with
    | nil => exact absurd hs (splitDot_ne p)
    | cons k ks =>
      rw [hs] at h
      dsimp only at h
      cases v with
      | obj es =>
        dsimp only at h
        simp only [descend]
        cases hg : get k es with
        | none => rw [hg] at h; cases h; rfl
        | some cv =>
          rw [hg] at h
          dsimp only [Option.bind_some] at h ⊢
          cases ks with
          | nil => simp at h; rw [← h]; rfl
          | cons k' ks =>
            simp only [List.length_cons, Nat.zero_lt_succ, if_true] at h
            have := getValueN_ok n _ _ _ h
            rw [this]
            have hp := joinDot_splitDot p
            rw [hs] at hp
            have : p.drop (k.length + 1) = joinDot (k' :: ks) := by
              rw [← hp, joinDot_cons (by simp)]
              simp
            rw [this]
            congr 1
            refine splitDot_joinDot (by simp) fun s hm => ?_
            exact splitDot_mem (k := p) (by rw [hs]; exact List.mem_cons_of_mem _ hm)
      | _ => cases h; rfl

theorem getValueN_ne : ∀ (n : Nat) (v : Value) (p : Bytes), p.length < n → getValueN n v p ≠ .diverge
  | 0, _, _, h => absurd h (Nat.not_lt_zero _)
  | n + 1, v, p, h => by
    simp only [getValueN]
    have hc := checkPath_ne p
    cases hp : checkPath p with
    | panic => simp [Out.bind]
    | diverge => exact absurd hp hc
    | ok u =>
      simp only [Out.bind]
      cases hs : splitDot p with
      | nil => simp
      | cons k ks =>
        dsimp only
        cases v with
        | obj es =>
          dsimp only
          cases get k es with
          | none => simp
          | some cv =>
            dsimp only
            split
            · next hk =>
              refine getValueN_ne n _ _ ?_
              have hp := joinDot_splitDot p
              rw [hs, joinDot_cons (List.ne_nil_of_length_pos hk)] at hp
              have : (k.length + 1) ≤ p.length := by rw [← hp]; simp
              simp; omega
            · simp
        | _ => simp

theorem pathText_tail {k : Bytes} {ks : List Bytes} (hk : ks ≠ []) (hs : ∀ s ∈ k :: ks, Segment s) :
    PathText (joinDot ks) := ⟨ks, hk, fun s h => hs s (by simp [h]), rfl⟩

theorem segment_noDot {s : Bytes} (h : Segment s) : byte '.' ∉ s := fun hm => by
  have := h.2 _ hm
  revert this; decide

theorem getValueN_legal : ∀ (n : Nat) (v : Value) (ss : List Bytes), ss ≠ [] → (∀ s ∈ ss, Segment s) →
    (joinDot ss).length < n → getValueN n v (joinDot ss) = .ok (descend ss v)
  | 0, _, _, _, _, h => absurd h (Nat.not_lt_zero _)
  | n + 1, v, ss, hne, hs, h => by
    cases hr : getValueN (n + 1) v (joinDot ss) with
    | ok r =>
      rw [getValueN_ok _ _ _ _ hr, splitDot_joinDot hne fun s hm => segment_noDot (hs s hm)]
    | diverge => exact absurd hr (getValueN_ne _ _ _ h)
    | panic =>
      exfalso
      simp only [getValueN] at hr
      rw [checkPath_ok ⟨ss, hne, hs, rfl⟩] at hr
      simp only [Out.bind] at hr
      rw [splitDot_joinDot hne fun s hm => segment_noDot (hs s hm)] at hr
      cases ss with
      | nil => exact hne rfl
      | cons k ks =>
        dsimp only at hr
        cases v with
        | obj es =>
          dsimp only at hr
          cases hg : get k es with
          | none => rw [hg] at hr; cases hr
          | some cv =>
            rw [hg] at hr
            dsimp only at hr
            split at hr
            · next hk =>
              have hk' := List.ne_nil_of_length_pos hk
              rw [joinDot_cons hk', show (k ++ byte '.' :: joinDot ks).drop (k.length + 1) = joinDot ks by simp] at hr
              rw [joinDot_cons hk'] at h
              rw [getValueN_legal n _ ks hk' (fun s hm => hs s (by simp [hm])) (by simp at h; omega)] at hr
              cases hr
            · cases hr
        | _ => cases hr

theorem hasPathN_eq : ∀ (n : Nat) (v : Value) (p : Bytes),
    hasPathN n v p = (getValueN n v p).bind fun r => .ok r.isSome
  | 0, _, _ => rfl
  | n + 1, v, p => by
    simp only [hasPathN, getValueN]
    cases checkPath p with
    | ok u =>
      simp only [Out.bind]
      cases splitDot p with
      | nil => rfl
      | cons k ks =>
        dsimp only
        cases v with
        | obj es =>
          dsimp only
          cases get k es with
          | none => rfl
          | some cv =>
            dsimp only
            split
            · rw [hasPathN_eq n]; rfl
            · rfl
        | _ => rfl
    | _ => rfl

end OniComb.Hocon
