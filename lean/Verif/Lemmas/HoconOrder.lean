import Verif.Lemmas.HoconMeaning
import Verif.Lemmas.HoconResolve
import Verif.Spec.HoconOrder

/-! # Helper lemmas: the iteration order of maps -/

namespace OniComb.Hocon
open OniComb OniComb.Hocon.Spec
open OniComb.Uri (Bytes byte bytes)

theorem _root_.OniComb.Hocon.Spec.Same.symm {v w : Value} (h : Same v w) : Same w v := by
  induction h with
  | obj dom _ ih => exact .obj (fun k => (dom k).symm) fun k x y h1 h2 => ih k y x h2 h1
  | _ => constructor <;> assumption

theorem _root_.OniComb.Hocon.Spec.Same.trans {u v w : Value} (h : Same u v) (h' : Same v w) : Same u w := by
  induction h generalizing w with
  | @obj a b dom deep ih =>
    obtain ⟨c, rfl⟩ := isObj_iff.1 (h'.kind.2.1.1 trivial)
    have hab := same_obj_iff.1 (Same.obj dom deep)
    have hbc := same_obj_iff.1 h'
    refine same_obj_iff.2 fun k => ?_
    rcases hab k with ⟨h1, h2⟩ | ⟨x, y, h1, h2, -⟩
    · rcases hbc k with ⟨h3, h4⟩ | ⟨y, z, h3, h4, h5⟩
      · exact .inl ⟨h1, h4⟩
      · rw [h2] at h3; cases h3
    · rcases hbc k with ⟨h3, h4⟩ | ⟨y', z, h3, h4, h5⟩
      · rw [h2] at h3; cases h3
      · rw [h2] at h3
        cases h3
        exact .inr ⟨x, z, h1, h4, ih k x y h1 h2 h5⟩
  | cons _ _ ih1 ih2 => cases h' with | cons h1 h2 => exact .cons (ih1 h1) (ih2 h2)
  | enumNone _ ih => cases h' with | enumNone h => exact .enumNone (ih h)
  | enumSome _ _ ih1 ih2 => cases h' with | enumSome h1 h2 => exact .enumSome (ih1 h1) (ih2 h2)
  | refSome _ ih => cases h' with | refSome h => exact .refSome (ih h)
  | link _ _ ih1 ih2 => cases h' with | link h1 h2 => exact .link (ih1 h1) (ih2 h2)
  | _ => exact h'

theorem same_latest {v w : Value} (h : Same v w) : Same (latest v) (latest w) := by
  cases h with
  | link _ hv => exact hv
  | nil => exact .nil
  | cons h hs => exact .cons h hs
  | obj a b => exact .obj a b
  | enumNone h => exact .enumNone h
  | enumSome h h' => exact .enumSome h h'
  | refSome h => exact .refSome h
  | _ => constructor

theorem same_prevLatest {v w : Value} (h : Same v w) : Same (prevLatest v) (prevLatest w) := by
  cases h with
  | link hp hv =>
    cases hp with
    | link _ h => exact h
    | nil => exact .nil
    | cons h hs => exact .cons h hs
    | obj a b => exact .obj a b
    | enumNone h => exact .enumNone h
    | enumSome h h' => exact .enumSome h h'
    | refSome h => exact .refSome h
    | _ => constructor
  | nil => exact .nil
  | cons h hs => exact .cons h hs
  | obj a b => exact .obj a b
  | enumNone h => exact .enumNone h
  | enumSome h h' => exact .enumSome h h'
  | refSome h => exact .refSome h
  | _ => constructor

theorem same_push {a a' b b' : Value} (ha : Same a a') (hb : Same b b') : Same (push a b) (push a' b') := by
  rw [push_eq, push_eq]
  exact .link ha (.remember ha hb)

/-! ### Lookup -/

/-- The same answer of a lookup. -/
def FoundSame : Out (Option Value) → Out (Option Value) → Prop
  | .ok none, .ok none => True
  | .ok (some x), .ok (some y) => Same x y
  | .panic, .panic => True
  | .diverge, .diverge => True
  | _, _ => False

theorem getValueN_same : ∀ (n : Nat) (s s' : Value) (p : Bytes), Same s s' →
    FoundSame (getValueN n s p) (getValueN n s' p)
  | 0, _, _, _, _ => by simp [getValueN, FoundSame]
  | n + 1, s, s', p, h => by
    simp only [getValueN]
    cases checkPath p with
    | panic => trivial
    | diverge => trivial
    | ok u =>
      simp only [Out.bind]
      cases splitDot p with
      | nil => trivial
      | cons k ks =>
        simp only
        by_cases ho : IsObj s
        · obtain ⟨es, rfl⟩ := isObj_iff.1 ho
          obtain ⟨fs, rfl⟩ := isObj_iff.1 (h.kind.2.1.1 trivial)
          rcases same_obj_iff.1 h k with ⟨h1, h2⟩ | ⟨x, y, h1, h2, h3⟩
          · simp only [h1, h2]; trivial
          · simp only [h1, h2]
            by_cases hk : 0 < ks.length
            · rw [if_pos hk, if_pos hk]; exact getValueN_same n _ _ _ (same_latest h3)
            · rw [if_neg hk, if_neg hk]; exact same_latest h3
        · have ho' : ¬ IsObj s' := fun h' => ho (h.kind.2.1.2 h')
          cases s <;> first | exact absurd trivial ho | skip
          all_goals cases s' <;> first | exact absurd trivial ho' | trivial

/-! ### Resolution -/

/-- If the first call returns, then so does the second one, with the same value. -/
def Within (o o' : Out Value) : Prop := ∀ v, o = .ok v → ∃ v', o' = .ok v' ∧ Same v v'

theorem alike_iff {o o' : Out Value} : Alike o o' ↔ Within o o' ∧ Within o' o := by
  constructor
  · rintro (⟨v, v', rfl, rfl, h⟩ | ⟨h1, h2⟩)
    · exact ⟨fun x hx => by cases hx; exact ⟨_, rfl, h⟩, fun x hx => by cases hx; exact ⟨_, rfl, h.symm⟩⟩
    · exact ⟨fun x hx => absurd hx (h1 x), fun x hx => absurd hx (h2 x)⟩
  · rintro ⟨h1, h2⟩
    by_cases h : ∃ v, o = .ok v
    · obtain ⟨v, hv⟩ := h
      obtain ⟨v', hv', hs⟩ := h1 v hv
      exact .inl ⟨v, v', hv, hv', hs⟩
    · refine .inr ⟨fun v hv => h ⟨v, hv⟩, fun v hv => ?_⟩
      obtain ⟨v', hv', -⟩ := h2 v hv
      exact h ⟨v', hv'⟩

theorem mapOut_within {f g : Value → Out Value} : ∀ {vs ws rs : List Value}, List.Forall₂ Same vs ws →
    (∀ v w, v ∈ vs → w ∈ ws → Same v w → Within (f v) (g w)) → mapOut f vs = .ok rs →
    ∃ rs', mapOut g ws = .ok rs' ∧ List.Forall₂ Same rs rs'
  | [], [], rs, _, _, h => by cases h; exact ⟨[], rfl, .nil⟩
  | v :: vs, w :: ws, rs, hs, hf, h => by
    cases hs with
    | cons h1 h2 =>
      simp only [mapOut] at h ⊢
      obtain ⟨a, e1, h⟩ := bind_eq_ok.1 h
      obtain ⟨as, e2, h⟩ := bind_eq_ok.1 h
      cases h
      obtain ⟨b, e3, h3⟩ := hf v w (by simp) (by simp) h1 a e1
      obtain ⟨bs, e4, h4⟩ := mapOut_within h2 (fun v w hv hw => hf v w (by simp [hv]) (by simp [hw])) e2
      rw [e3, e4]
      exact ⟨b :: bs, rfl, .cons h3 h4⟩

theorem mapOut_ok {A B : Type} {f : A → Out B} : ∀ {l : List A}, (∀ a ∈ l, ∃ b, f a = .ok b) → ∃ r, mapOut f l = .ok r
  | [], _ => ⟨[], rfl⟩
  | a :: l, h => by
    obtain ⟨b, hb⟩ := h a (by simp)
    obtain ⟨r, hr⟩ := mapOut_ok fun x hx => h x (List.mem_cons_of_mem _ hx)
    exact ⟨b :: r, by simp [mapOut, hb, hr, Out.bind]⟩

theorem get_mapOut {f : Value → Out Value} {k : Bytes} : ∀ {es rs : Entries},
    mapOut (fun e => (f e.2).bind fun v => .ok (e.1, v)) es = .ok rs →
    (get k es = none ∧ get k rs = none) ∨ ∃ x y, get k es = some x ∧ get k rs = some y ∧ f x = .ok y
  | [], rs, h => by cases h; exact .inl ⟨rfl, rfl⟩
  | (k', v) :: es, rs, h => by
    simp only [mapOut] at h
    obtain ⟨a, h1, h⟩ := bind_eq_ok.1 h
    obtain ⟨as, h2, h⟩ := bind_eq_ok.1 h
    obtain ⟨y, h3, h4⟩ := bind_eq_ok.1 h1
    cases h4
    cases h
    rw [get, get]
    by_cases hk : k' = k
    · rw [if_pos hk, if_pos hk]; exact .inr ⟨v, y, rfl, rfl, h3⟩
    · rw [if_neg hk, if_neg hk]; exact get_mapOut h2

theorem toVec_same {v w : Value} (h : Same v w) : List.Forall₂ Same (toVec v) (toVec w) := by
  induction h with
  | @link p q v w hp hv ih _ =>
    rw [toVec, toVec]
    exact List.rel_append ih (.cons hv .nil)
  | nil => exact .cons .nil .nil
  | cons h hs => exact .cons (.cons h hs) .nil
  | obj a b => exact .cons (.obj a b) .nil
  | enumNone h => exact .cons (.enumNone h) .nil
  | enumSome h h' => exact .cons (.enumSome h h') .nil
  | refSome h => exact .cons (.refSome h) .nil
  | _ => exact .cons (by constructor) .nil

theorem toVec_wf (v : Value) : Wf v → ∀ x ∈ toVec v, Wf x := by
  induction v using toVec.induct with
  | case1 p v ih =>
    intro h x hx
    simp only [Wf] at h
    rw [toVec, List.mem_append] at hx
    rcases hx with hx | hx
    · exact ih h.1 x hx
    · simp only [List.mem_singleton] at hx; exact hx ▸ h.2
  | case2 v hv =>
    intro h x hx
    rw [toVec, List.mem_singleton] at hx
    · exact hx ▸ h
    · exact hv

theorem pushAll_within {f g : Value → Out Value} : ∀ {vs ws : List Value} {a a' r : Value}, List.Forall₂ Same vs ws →
    Same a a' → (∀ v w, v ∈ vs → w ∈ ws → Same v w → Within (f v) (g w)) → pushAll f a vs = .ok r →
    ∃ r', pushAll g a' ws = .ok r' ∧ Same r r'
  | [], [], a, a', r, _, ha, _, h => by cases h; exact ⟨a', rfl, ha⟩
  | v :: vs, w :: ws, a, a', r, hs, ha, hf, h => by
    cases hs with
    | cons h1 h2 =>
      simp only [pushAll] at h ⊢
      obtain ⟨b, e1, h⟩ := bind_eq_ok.1 h
      obtain ⟨b', e2, hb⟩ := hf v w (by simp) (by simp) h1 b e1
      rw [e2]
      exact pushAll_within h2 (same_push ha hb) (fun v w hv hw => hf v w (by simp [hv]) (by simp [hw])) h

theorem latest_wf {v : Value} (h : Wf v) : Wf (latest v) := by
  cases v with
  | link p v => simp only [Wf] at h; exact h.2
  | _ => exact h

theorem getValueN_wf : ∀ (n : Nat) {s x : Value} {p : Bytes}, Wf s → getValueN n s p = .ok (some x) → Wf x
  | 0, _, _, _, _, h => by cases h
  | n + 1, s, x, p, hs, h => by
    simp only [getValueN] at h
    obtain ⟨-, -, h⟩ := bind_eq_ok.1 h
    cases hp : splitDot p with
    | nil => simp [hp] at h
    | cons k ks =>
      simp only [hp] at h
      cases s with
      | obj es =>
        simp only at h
        cases hg : get k es with
        | none => simp [hg] at h
        | some y =>
          simp only [hg] at h
          have hy := latest_wf (wf_get hs hg)
          by_cases hk : 0 < ks.length
          · rw [if_pos hk] at h; exact getValueN_wf n hy h
          · rw [if_neg hk] at h; cases h; exact hy
      | _ => simp at h

theorem strings_same {f : Value → Bytes} (hf : ∀ v w, Same v w → f v = f w) {rs rs' : List Value}
    (h : List.Forall₂ Same rs rs') : rs.flatMap f = rs'.flatMap f := by
  induction h with
  | nil => rfl
  | cons h _ ih => rw [List.flatMap_cons, List.flatMap_cons, ih, hf _ _ h]

theorem resolve_within {env env' : Env} (hv : ∀ p, env'.var p = env.var p)
    (hl : ∀ f, Within (env.load f) (env'.load f)) {s s' : Value} (hs : Same s s') (hw : Wf s) (hw' : Wf s') :
    ∀ (n : Nat) (v v' : Value), Wf v → Wf v' → Same v v' → Within (resolve env s n v) (resolve env' s' n v')
  | 0, _, _, _, _, _ => fun r h => by cases h
  | n + 1, v, v', hwv, hwv', h => by
    have ih := resolve_within hv hl hs hw hw' n
    intro r hr
    cases h with
    | @incl m f => exact hl f r hr
    | @link p q v w hp hv' =>
      have h1 := toVec_same (Same.link hp hv')
      have h2 := toVec_wf _ hwv
      have h3 := toVec_wf _ hwv'
      rw [resolve] at hr ⊢
      cases e1 : toVec (.link p v) with
      | nil => exact absurd e1 (toVec_ne _)
      | cons c cs =>
        cases e2 : toVec (.link q w) with
        | nil => exact absurd e2 (toVec_ne _)
        | cons d ds =>
          rw [e1, e2] at h1
          rw [e1] at h2 hr
          rw [e2] at h3
          cases h1 with
          | cons h4 h5 =>
            simp only at hr ⊢
            obtain ⟨a, e3, hr⟩ := bind_eq_ok.1 hr
            obtain ⟨a', e4, ha⟩ := ih c d (h2 c (by simp)) (h3 d (by simp)) h4 a e3
            rw [e4]
            exact pushAll_within h5 ha (fun v w hv hw => ih v w (h2 v (by simp [hv])) (h3 w (by simp [hw]))) hr
    | nil => cases hr; exact ⟨_, rfl, .nil⟩
    | @cons a b as bs h1 h2 =>
      rw [resolve_arr] at hr ⊢
      obtain ⟨rs, e1, e2⟩ := bind_eq_ok.1 hr
      cases e2
      have hws : ∀ x ∈ a :: as, Wf x := wfList_iff.1 (by simpa [Wf] using hwv)
      have hws' : ∀ x ∈ b :: bs, Wf x := wfList_iff.1 (by simpa [Wf] using hwv')
      obtain ⟨rs', e3, h3⟩ := mapOut_within (same_arr_iff.1 (.cons h1 h2))
        (fun v w hv hw => ih v w (hws v hv) (hws' w hw)) e1
      rw [e3]
      exact ⟨_, rfl, same_arr_iff.2 h3⟩
    | @obj es fs dom deep =>
      have hso := same_obj_iff.1 (Same.obj dom deep)
      obtain ⟨n1, w1⟩ := wf_obj.1 hwv
      obtain ⟨n2, w2⟩ := wf_obj.1 hwv'
      rw [resolve_obj] at hr ⊢
      obtain ⟨rs, e1, e2⟩ := bind_eq_ok.1 hr
      cases e2
      have hok : ∀ e ∈ fs, ∃ b, ((resolve env' s' n e.2).bind fun v => Out.ok (e.1, v)) = .ok b := by
        intro e he
        have hge := get_of_mem n2 (show (e.1, e.2) ∈ fs from he)
        rcases hso e.1 with ⟨-, h2⟩ | ⟨x, y, h1, h2, h3⟩
        · rw [hge] at h2; cases h2
        · rw [hge] at h2
          cases h2
          rcases get_mapOut (k := e.1) e1 with ⟨h4, -⟩ | ⟨x', z, h4, -, h6⟩
          · rw [h1] at h4; cases h4
          · rw [h1] at h4
            cases h4
            obtain ⟨z', h7, -⟩ := ih x e.2 (wf_get hwv h1) (w2 e he) h3 z h6
            exact ⟨_, by rw [h7]; rfl⟩
      obtain ⟨rs', e3⟩ := mapOut_ok hok
      rw [e3]
      refine ⟨_, rfl, same_obj_iff.2 fun k => ?_⟩
      rcases get_mapOut (k := k) e1 with ⟨h1, h2⟩ | ⟨x, z, h1, h2, h3⟩
      · rcases get_mapOut (k := k) e3 with ⟨h4, h5⟩ | ⟨y, z', h4, h5, h6⟩
        · exact .inl ⟨h2, h5⟩
        · rcases hso k with ⟨-, h7⟩ | ⟨_, _, h7, -, -⟩
          · rw [h4] at h7; cases h7
          · rw [h1] at h7; cases h7
      · rcases hso k with ⟨h7, -⟩ | ⟨x', y, h7, h8, h9⟩
        · rw [h1] at h7; cases h7
        · rw [h1] at h7
          cases h7
          rcases get_mapOut (k := k) e3 with ⟨h4, h5⟩ | ⟨y', z', h4, h5, h6⟩
          · rw [h8] at h4; cases h4
          · rw [h8] at h4
            cases h4
            obtain ⟨z'', h10, h11⟩ := ih x y (wf_get hwv h1) (wf_get hwv' h8) h9 z h3
            rw [h6] at h10
            cases h10
            exact .inr ⟨z, z', h2, h5, h11⟩
    | @enumNone vs ws h1 =>
      rw [resolve_enum] at hr ⊢
      obtain ⟨rs, e1, e2⟩ := bind_eq_ok.1 hr
      have hws : ∀ x ∈ vs, Wf x := wfList_iff.1 (by simpa [Wf] using hwv)
      have hws' : ∀ x ∈ ws, Wf x := wfList_iff.1 (by simpa [Wf] using hwv')
      obtain ⟨rs', e3, h3⟩ := mapOut_within (same_arr_iff.1 h1) (fun v w hv hw => ih v w (hws v hv) (hws' w hw)) e1
      rw [e3]
      simp only [Out.bind] at e2 ⊢
      rw [← strings_same (fun v w h => by cases h <;> rfl) h3]
      split at e2
      · cases e2
      · rename_i hne; rw [if_neg hne]; cases e2; exact ⟨_, rfl, .str⟩
    | @enumSome p q vs ws hp h1 =>
      rw [resolve_enum] at hr ⊢
      obtain ⟨rs, e1, e2⟩ := bind_eq_ok.1 hr
      have hws : ∀ x ∈ vs, Wf x := wfList_iff.1 (by simpa [Wf] using hwv)
      have hws' : ∀ x ∈ ws, Wf x := wfList_iff.1 (by simpa [Wf] using hwv')
      obtain ⟨rs', e3, h3⟩ := mapOut_within (same_arr_iff.1 h1) (fun v w hv hw => ih v w (hws v hv) (hws' w hw)) e1
      rw [e3]
      simp only [Out.bind] at e2 ⊢
      rw [← strings_same (fun v w h => by cases h <;> rfl) h3]
      split at e2
      · rename_i hne; rw [if_pos hne]; cases e2; exact ⟨_, rfl, same_prevLatest hp⟩
      · rename_i hne; rw [if_neg hne]; cases e2; exact ⟨_, rfl, .str⟩
    | @refNone path m =>
      rw [resolve_ref] at hr ⊢
      rw [hv]
      have hf := getValueN_same (path.length + 1) s s' path hs
      unfold getValue at hr ⊢
      cases e1 : getValueN (path.length + 1) s path with
      | panic => rw [e1] at hr; cases hr
      | diverge => rw [e1] at hr; cases hr
      | ok o =>
        rw [e1] at hr hf
        cases e2 : getValueN (path.length + 1) s' path with
        | panic => rw [e2] at hf; cases o <;> cases hf
        | diverge => rw [e2] at hf; cases o <;> cases hf
        | ok o' =>
          rw [e2] at hf
          simp only [Out.bind] at hr ⊢
          cases o with
          | none =>
            cases o' with
            | some _ => cases hf
            | none =>
              simp only [Option.none_or] at hr ⊢
              cases e3 : env.var path with
              | none => rw [e3] at hr; cases m <;> cases hr
              | some t => rw [e3] at hr; exact ih (.str t) (.str t) trivial trivial .str r hr
          | some x =>
            cases o' with
            | none => cases hf
            | some y =>
              simp only [Option.some_or] at hr ⊢
              exact ih x y (getValueN_wf _ hw e1) (getValueN_wf _ hw' e2) hf r hr
    | @refSome p q path m hp =>
      rw [resolve_ref] at hr ⊢
      rw [hv]
      have hf := getValueN_same (path.length + 1) s s' path hs
      unfold getValue at hr ⊢
      cases e1 : getValueN (path.length + 1) s path with
      | panic => rw [e1] at hr; cases hr
      | diverge => rw [e1] at hr; cases hr
      | ok o =>
        rw [e1] at hr hf
        cases e2 : getValueN (path.length + 1) s' path with
        | panic => rw [e2] at hf; cases o <;> cases hf
        | diverge => rw [e2] at hf; cases o <;> cases hf
        | ok o' =>
          rw [e2] at hf
          simp only [Out.bind] at hr ⊢
          cases o with
          | none =>
            cases o' with
            | some _ => cases hf
            | none =>
              simp only [Option.none_or] at hr ⊢
              cases e3 : env.var path with
              | none =>
                rw [e3] at hr
                cases m with
                | false => cases hr
                | true => cases hr; exact ⟨_, rfl, same_prevLatest hp⟩
              | some t => rw [e3] at hr; exact ih (.str t) (.str t) trivial trivial .str r hr
          | some x =>
            cases o' with
            | none => cases hf
            | some y =>
              simp only [Option.some_or] at hr ⊢
              exact ih x y (getValueN_wf _ hw e1) (getValueN_wf _ hw' e2) hf r hr
    | _ => cases hr; exact ⟨_, rfl, by constructor⟩

/-! ### Writing out dotted keys -/

/-- `a` has exactly the values of `X` at the paths of `X`, and nothing besides. -/
inductive Tree : (List Bytes → Value → Prop) → Value → Prop where
  | leaf {X : List Bytes → Value → Prop} {a : Value} (h : X [] a) : Tree X a
  | node {X : List Bytes → Value → Prop} {es : Entries} (h : ∀ v, ¬ X [] v)
      (hn : ∀ k, (get k es).isSome ↔ ∃ p v, X (k :: p) v)
      (hs : ∀ k x, get k es = some x → Tree (fun p v => X (k :: p) v) x) : Tree X (.obj es)

theorem tree_same {X : List Bytes → Value → Prop} {a : Value} (h : Tree X a) :
    ∀ {Y : List Bytes → Value → Prop} {b : Value}, Tree Y b → (∀ p, (∃ v, X p v) ↔ ∃ v, Y p v) →
      (∀ p v w, X p v → Y p w → Same v w) → Same a b := by
  induction h with
  | @leaf X a h =>
    intro Y b hb hd hs
    cases hb with
    | leaf h' => exact hs _ _ _ h h'
    | node h' => obtain ⟨v, hv⟩ := (hd []).1 ⟨_, h⟩; exact absurd hv (h' v)
  | @node X es h hn _ ih =>
    intro Y b hb hd hs
    cases hb with
    | leaf h' => obtain ⟨v, hv⟩ := (hd []).2 ⟨_, h'⟩; exact absurd hv (h v)
    | node h' hn' hs' =>
      refine .obj (fun k => ?_) fun k x y hx hy => ih k x hx (hs' k y hy) (fun p => hd _) fun p v w => hs _ _ _
      rw [hn, hn']
      constructor
      · rintro ⟨p, hp⟩; exact ⟨p, (hd _).1 hp⟩
      · rintro ⟨p, hp⟩; exact ⟨p, (hd _).2 hp⟩

theorem tree_congr {X Y : List Bytes → Value → Prop} {a : Value} (h : Tree X a) (he : ∀ p v, X p v ↔ Y p v) : Tree Y a := by
  have : X = Y := by funext p v; exact propext (he p v)
  exact this ▸ h

theorem tree_nest {v : Value} : ∀ (p : List Bytes), Tree (fun q w => q = p ∧ w = v) (nest p v)
  | [] => .leaf ⟨rfl, rfl⟩
  | k :: p => by
    refine .node (by simp) (fun k' => ?_) fun k' x hx => ?_
    · simp only [get]
      by_cases hk : k = k'
      · simp [hk]
      · simp [hk, Ne.symm hk]
    · simp only [get] at hx
      by_cases hk : k = k'
      · subst hk
        rw [if_pos rfl] at hx
        cases hx
        exact tree_congr (tree_nest p) (by simp)
      · rw [if_neg hk] at hx; cases hx

theorem tree_merge {v : Value} : ∀ (p : List Bytes) {X : List Bytes → Value → Prop} {a : Value}, Tree X a →
    (∀ q w, X q w → ¬ Comparable p q) → (∃ q w, X q w) ∨ (p ≠ [] ∧ IsObj a) →
    Tree (fun q w => X q w ∨ (q = p ∧ w = v)) (merge (nest p v) a)
  | [], X, a, h, hc, hn => by
    rcases hn with ⟨q, w, hq⟩ | ⟨hn, -⟩
    · exact absurd comparable_nil_left (hc q w hq)
    · exact absurd rfl hn
  | k :: p, X, a, h, hc, hn => by
    cases h with
    | leaf h => exact absurd comparable_nil_right (hc _ _ h)
    | @node _ es h hd hs =>
      rw [nest, merge_obj_obj]
      refine .node (fun w => ?_) (fun k' => ?_) fun k' x hx => ?_
      · rintro (hw | hw)
        · exact h w hw
        · simp at hw
      · rw [get_merge_nest]
        by_cases hk : k = k'
        · subst hk
          simp only [if_true, Option.isSome_some, true_iff]
          exact ⟨p, v, .inr ⟨rfl, rfl⟩⟩
        · rw [if_neg hk, hd]
          constructor
          · rintro ⟨q, w, hq⟩; exact ⟨q, w, .inl hq⟩
          · rintro ⟨q, w, hq | hq⟩
            · exact ⟨q, w, hq⟩
            · exact absurd (List.cons.inj hq.1).1.symm hk
      · rw [get_merge_nest] at hx
        by_cases hk : k = k'
        · subst hk
          rw [if_pos rfl] at hx
          cases hx
          cases hg : get k es with
          | none =>
            refine tree_congr (tree_nest p) fun q w => ?_
            have : ¬ X (k :: q) w := fun hq => by
              have := (hd k).2 ⟨q, w, hq⟩
              rw [hg] at this
              cases this
            simp [this]
          | some x =>
            refine tree_congr (tree_merge p (hs k x hg) (fun q w hq hcq => ?_) (.inl ?_)) fun q w => by simp
            · exact hc _ _ hq (comparable_cons.2 ⟨rfl, hcq⟩)
            · exact (hd k).1 (by rw [hg]; rfl)
        · rw [if_neg hk] at hx
          refine tree_congr (hs k' x hx) fun q w => ?_
          simp [Ne.symm hk]

theorem joinDot_append : ∀ {p t : List Bytes}, p ≠ [] → t ≠ [] → joinDot (p ++ t) = joinDot p ++ byte '.' :: joinDot t
  | [], _, h, _ => absurd rfl h
  | [a], t, _, ht => by rw [List.singleton_append, joinDot_cons ht]; rfl
  | a :: b :: p, t, _, ht => by
    rw [List.cons_append, joinDot_cons (by simp), joinDot_cons (by simp), joinDot_append (by simp) ht]
    simp

theorem splitDot_isPrefix {k k' : Bytes} (h : splitDot k <+: splitDot k') : k = k' ∨ ∃ r, k' = k ++ byte '.' :: r := by
  obtain ⟨t, ht⟩ := h
  by_cases he : t = []
  · subst he
    left
    rw [← joinDot_splitDot k, ← joinDot_splitDot k', ← ht, List.append_nil]
  · right
    refine ⟨joinDot t, ?_⟩
    rw [← joinDot_splitDot k', ← ht, joinDot_append (splitDot_ne _) he, joinDot_splitDot]

/-- The dotted entries as paths and expanded values. -/
def Written (env : Env) (es : Entries) (p : List Bytes) (w : Value) : Prop :=
  ∃ e ∈ es, byte '.' ∈ e.1 ∧ splitDot e.1 = p ∧ expand env e.2 = .ok w

theorem expandEntries_ok {env : Env} : ∀ {es new : Entries}, (∀ e ∈ es, byte '.' ∈ e.1 → ∃ w, expand env e.2 = .ok w) →
    ∃ r, expandEntries env es new = .ok r
  | [], new, _ => ⟨new, by rw [expandEntries]⟩
  | (k, v) :: es, new, h => by
    rw [expandEntries]
    by_cases hk : byte '.' ∈ k
    · obtain ⟨s, ss, h1, h2⟩ := splitDot_dotted hk
      obtain ⟨w, hw⟩ := h (k, v) (by simp) hk
      rw [expandEntry_dotted hk h1 h2, hw]
      exact expandEntries_ok fun e he => h e (List.mem_cons_of_mem _ he)
    · rw [expandEntry_plain hk]
      exact expandEntries_ok fun e he => h e (List.mem_cons_of_mem _ he)

theorem expandEntries_all {env : Env} : ∀ {es new r : Entries}, expandEntries env es new = .ok r →
    ∀ e ∈ es, byte '.' ∈ e.1 → ∃ w, expand env e.2 = .ok w
  | (k, v) :: es, new, r, h, e, he, hd => by
    rw [expandEntries] at h
    obtain ⟨m, h1, h2⟩ := bind_eq_ok.1 h
    rcases List.mem_cons.1 he with rfl | he
    · obtain ⟨s, ss, h3, h4⟩ := splitDot_dotted hd
      rw [expandEntry_dotted hd h3 h4] at h1
      obtain ⟨w, hw, -⟩ := bind_eq_ok.1 h1
      exact ⟨w, hw⟩
    · exact expandEntries_all h2 e he hd

theorem expandEntries_tree {env : Env} : ∀ {es new r : Entries} {X : List Bytes → Value → Prop},
    expandEntries env es new = .ok r → Tree X (.obj new) → (keys es).Nodup →
    (∀ e ∈ es, byte '.' ∈ e.1 → ∀ q w, X q w → ¬ Comparable (splitDot e.1) q) →
    (∀ e ∈ es, ∀ f ∈ es, byte '.' ∈ e.1 → ∀ r, f.1 ≠ e.1 ++ byte '.' :: r) →
    Tree (fun p w => X p w ∨ Written env es p w) (.obj r)
  | [], new, r, X, h, ht, _, _, _ => by
    rw [expandEntries] at h
    cases h
    exact tree_congr ht fun p w => by simp [Written]
  | (k, v) :: es, new, r, X, h, ht, hn, hX, hA => by
    rw [expandEntries] at h
    obtain ⟨m, h1, h2⟩ := bind_eq_ok.1 h
    have hn' : k ∉ keys es ∧ (keys es).Nodup := by simpa [keys] using hn
    have hA' : ∀ e ∈ es, ∀ f ∈ es, byte '.' ∈ e.1 → ∀ r, f.1 ≠ e.1 ++ byte '.' :: r :=
      fun e he f hf => hA e (List.mem_cons_of_mem _ he) f (List.mem_cons_of_mem _ hf)
    by_cases hk : byte '.' ∈ k
    · obtain ⟨s, ss, h3, h4⟩ := splitDot_dotted hk
      rw [expandEntry_dotted hk h3 h4] at h1
      obtain ⟨w, hw, hm⟩ := bind_eq_ok.1 h1
      cases hm
      have ht' := tree_merge (v := w) (s :: ss) ht (fun q u hq => h3 ▸ hX (k, v) (by simp) hk q u hq) (.inr ⟨by simp, trivial⟩)
      rw [← obj_mergeEntry] at ht'
      refine tree_congr (expandEntries_tree h2 ht' hn'.2 (fun e he hd q u hq => ?_) hA') fun p u => ?_
      · rcases hq with hq | ⟨rfl, rfl⟩
        · exact hX e (List.mem_cons_of_mem _ he) hd q u hq
        · rw [← h3]
          have hne : e.1 ≠ k := fun hek => hn'.1 (hek ▸ List.mem_map_of_mem he)
          rintro (hc | hc)
          · rcases splitDot_isPrefix hc with hc | ⟨r, hc⟩
            · exact hne hc
            · exact hA e (List.mem_cons_of_mem _ he) (k, v) (by simp) hd r hc
          · rcases splitDot_isPrefix hc with hc | ⟨r, hc⟩
            · exact hne hc.symm
            · exact hA (k, v) (by simp) e (List.mem_cons_of_mem _ he) hk r hc
      · constructor
        · rintro ((hp | ⟨rfl, rfl⟩) | ⟨e, he, h5⟩)
          · exact .inl hp
          · exact .inr ⟨(k, v), by simp, hk, h3, hw⟩
          · exact .inr ⟨e, List.mem_cons_of_mem _ he, h5⟩
        · rintro (hp | ⟨e, he, h5, h6, h7⟩)
          · exact .inl (.inl hp)
          · rcases List.mem_cons.1 he with rfl | he
            · rw [hw] at h7
              cases h7
              exact .inl (.inr ⟨h6.symm.trans h3, rfl⟩)
            · exact .inr ⟨e, he, h5, h6, h7⟩
    · rw [expandEntry_plain hk] at h1
      cases h1
      refine tree_congr (expandEntries_tree h2 ht hn'.2 (fun e he => hX e (List.mem_cons_of_mem _ he)) hA') fun p u => ?_
      constructor
      · rintro (hp | ⟨e, he, h5⟩)
        · exact .inl hp
        · exact .inr ⟨e, List.mem_cons_of_mem _ he, h5⟩
      · rintro (hp | ⟨e, he, h5, h6, h7⟩)
        · exact .inl hp
        · rcases List.mem_cons.1 he with rfl | he
          · exact absurd h5 hk
          · exact .inr ⟨e, he, h5, h6, h7⟩

theorem expand_tree {env : Env} {es new : Entries} (h : expandEntries env es [] = .ok new) (hn : (keys es).Nodup)
    (hA : ∀ e ∈ es, ∀ f ∈ es, byte '.' ∈ e.1 → ∀ r, f.1 ≠ e.1 ++ byte '.' :: r) : Tree (Written env es) (.obj new) := by
  have h0 : Tree (fun _ _ => False) (.obj []) := .node (by simp) (by simp [get]) (by simp [get])
  exact tree_congr (expandEntries_tree h h0 hn (by simp) hA) (by simp)

theorem isEmpty_of_tree {env : Env} {es new : Entries} (h : Tree (Written env es) (.obj new))
    (hall : ∀ e ∈ es, byte '.' ∈ e.1 → ∃ w, expand env e.2 = .ok w) :
    new.isEmpty = true ↔ ∀ e ∈ es, byte '.' ∉ e.1 := by
  have h0 : ∀ v, ¬ Written env es [] v := by
    rintro v ⟨e, -, -, h1, -⟩
    exact splitDot_ne _ h1
  cases h with
  | leaf h => exact absurd h (h0 _)
  | node _ hd _ =>
    constructor
    · intro he e hm hk
      obtain ⟨w, hw⟩ := hall e hm hk
      obtain ⟨s, ss, h3, -⟩ := splitDot_dotted hk
      have := (hd s).2 ⟨ss, w, e, hm, hk, h3, hw⟩
      rw [List.isEmpty_iff.1 he] at this
      cases this
    · intro hu
      cases new with
      | nil => rfl
      | cons f fs =>
        obtain ⟨p, w, e, hm, hk, -⟩ := (hd f.1).1 (by simp [get])
        exact absurd hk (hu e hm)

theorem same_entry {es fs : Entries} (h : Same (.obj es) (.obj fs)) (hn : (keys fs).Nodup) {e : Bytes × Value}
    (he : e ∈ fs) : ∃ x, (e.1, x) ∈ es ∧ Same x e.2 := by
  have hg := get_of_mem hn (show (e.1, e.2) ∈ fs from he)
  rcases same_obj_iff.1 h e.1 with ⟨-, h2⟩ | ⟨x, y, h1, h2, h3⟩
  · rw [hg] at h2; cases h2
  · rw [hg] at h2
    cases h2
    exact ⟨x, get_mem h1, h3⟩

theorem apart_same {v : Value} (h : Apart v) : ∀ {v' : Value}, Same v v' → Wf v' → Apart v' := by
  induction h with
  | other hv => intro v' hs _; exact .other fun h' => hv (hs.kind.2.1.2 h')
  | @obj es hA _ ih =>
    intro v' hs hw
    obtain ⟨fs, rfl⟩ := isObj_iff.1 (hs.kind.2.1.1 trivial)
    obtain ⟨hn, hwe⟩ := wf_obj.1 hw
    refine .obj (fun e he f hf hk r => ?_) fun e he hk => ?_
    · obtain ⟨x, hx, -⟩ := same_entry hs hn he
      obtain ⟨y, hy, -⟩ := same_entry hs hn hf
      exact hA _ hx _ hy hk r
    · obtain ⟨x, hx, hs'⟩ := same_entry hs hn he
      exact ih _ hx hk hs' (hwe e he)

theorem expand_within {env env' : Env} (hl : ∀ f, Within (env.load f) (env'.load f)) {v : Value} (ha : Apart v) :
    ∀ {v' : Value}, Wf v → Wf v' → Same v v' → Within (expand env v) (expand env' v') := by
  induction ha with
  | @other v hv =>
    intro v' _ _ hs r hr
    cases hs with
    | obj => exact absurd trivial hv
    | incl => simp only [expand] at hr ⊢; exact hl _ r hr
    | nil => simp only [expand] at hr ⊢; cases hr; exact ⟨_, rfl, .nil⟩
    | cons h hs => simp only [expand] at hr ⊢; cases hr; exact ⟨_, rfl, .cons h hs⟩
    | enumNone h => simp only [expand] at hr ⊢; cases hr; exact ⟨_, rfl, .enumNone h⟩
    | enumSome h h' => simp only [expand] at hr ⊢; cases hr; exact ⟨_, rfl, .enumSome h h'⟩
    | refSome h => simp only [expand] at hr ⊢; cases hr; exact ⟨_, rfl, .refSome h⟩
    | link h h' => simp only [expand] at hr ⊢; cases hr; exact ⟨_, rfl, .link h h'⟩
    | _ => simp only [expand] at hr ⊢; cases hr; exact ⟨_, rfl, by constructor⟩
  | @obj es hA hv ih =>
    intro v' hw hw' hs r hr
    obtain ⟨fs, rfl⟩ := isObj_iff.1 (hs.kind.2.1.1 trivial)
    obtain ⟨hn, hwe⟩ := wf_obj.1 hw
    obtain ⟨hn', hwe'⟩ := wf_obj.1 hw'
    rw [expand] at hr ⊢
    obtain ⟨new, h1, h2⟩ := bind_eq_ok.1 hr
    cases h2
    have hall := expandEntries_all h1
    have hall' : ∀ e ∈ fs, byte '.' ∈ e.1 → ∃ w, expand env' e.2 = .ok w := by
      intro e he hk
      obtain ⟨x, hx, hs'⟩ := same_entry hs hn' he
      obtain ⟨w, hw⟩ := hall _ hx hk
      obtain ⟨w', hw', -⟩ := ih _ hx hk (hwe _ hx) (hwe' e he) hs' w hw
      exact ⟨w', hw'⟩
    obtain ⟨new', h3⟩ := expandEntries_ok (new := []) hall'
    rw [h3]
    have hA' : ∀ e ∈ fs, ∀ f ∈ fs, byte '.' ∈ e.1 → ∀ r, f.1 ≠ e.1 ++ byte '.' :: r := by
      intro e he f hf hk r
      obtain ⟨x, hx, -⟩ := same_entry hs hn' he
      obtain ⟨y, hy, -⟩ := same_entry hs hn' hf
      exact hA _ hx _ hy hk r
    have t1 := expand_tree h1 hn hA
    have t2 := expand_tree h3 hn' hA'
    have e1 := isEmpty_of_tree t1 hall
    have e2 := isEmpty_of_tree t2 hall'
    by_cases hu : ∀ e ∈ es, byte '.' ∉ e.1
    · have hu' : ∀ e ∈ fs, byte '.' ∉ e.1 := by
        intro e he
        obtain ⟨x, hx, -⟩ := same_entry hs hn' he
        exact hu (e.1, x) hx
      simp only [Out.bind]
      rw [e1.2 hu, e2.2 hu', if_pos rfl, if_pos rfl]
      exact ⟨_, rfl, hs⟩
    · have hu' : ¬ ∀ e ∈ fs, byte '.' ∉ e.1 := by
        intro h
        refine hu fun e he => ?_
        obtain ⟨x, hx, -⟩ := same_entry hs.symm hn he
        exact h (e.1, x) hx
      simp only [Out.bind]
      rw [if_neg fun h => hu (e1.1 h), if_neg fun h => hu' (e2.1 h)]
      refine ⟨_, rfl, tree_same t1 t2 (fun p => ?_) fun p v w hpv hpw => ?_⟩
      · constructor
        · rintro ⟨v, e, he, hk, hp, hx⟩
          obtain ⟨y, hy, hs'⟩ := same_entry hs.symm hn he
          obtain ⟨w, hw⟩ := hall' _ hy hk
          exact ⟨w, _, hy, hk, hp, hw⟩
        · rintro ⟨v, e, he, hk, hp, hx⟩
          obtain ⟨y, hy, hs'⟩ := same_entry hs hn' he
          obtain ⟨w, hw⟩ := hall _ hy hk
          exact ⟨w, _, hy, hk, hp, hw⟩
      · obtain ⟨e, he, hk, hp, hx⟩ := hpv
        obtain ⟨f, hf, -, hp', hx'⟩ := hpw
        have hef : e.1 = f.1 := by rw [← joinDot_splitDot e.1, ← joinDot_splitDot f.1, hp, hp']
        obtain ⟨y, hy, hs'⟩ := same_entry hs hn' hf
        have : y = e.2 := by
          have g1 := get_of_mem hn (show (e.1, e.2) ∈ es from he)
          have g2 := get_of_mem hn hy
          rw [hef, g2] at g1
          exact Option.some.inj g1
        subst this
        obtain ⟨w', hw', hsw⟩ := ih e he hk (hwe e he) (hwe' f hf) hs' v hx
        rw [hx'] at hw'
        cases hw'
        exact hsw

/-! ### Loading -/

theorem mergeAll_within {env env' : Env} (hl : ∀ f, Within (env.load f) (env'.load f)) (hlw : LoadsWf env)
    (hlw' : LoadsWf env') : ∀ {vs ws : List Value} {a a' r : Value}, List.Forall₂ Same vs ws → (∀ v ∈ vs, Wf v ∧ Apart v) →
    (∀ v ∈ ws, Wf v) → Same a a' → Wf a → Wf a' → mergeAll env a vs = .ok r →
    ∃ r', mergeAll env' a' ws = .ok r' ∧ Same r r' ∧ Wf r ∧ Wf r'
  | [], [], a, a', r, _, _, _, hs, ha, ha', h => by cases h; exact ⟨a', rfl, hs, ha, ha'⟩
  | v :: vs, w :: ws, a, a', r, hvw, hv, hw, hs, ha, ha', h => by
    cases hvw with
    | cons h1 h2 =>
      obtain ⟨x, e1, e2⟩ := bind_eq_ok.1 h
      obtain ⟨hv1, hv2⟩ := hv v (by simp)
      obtain ⟨y, e3, hxy⟩ := expand_within hl hv2 hv1 (hw w (by simp)) h1 x e1
      have wx := (expand_expanded hlw v x hv1 e1).1
      have wy := (expand_expanded hlw' w y (hw w (by simp)) e3).1
      rw [mergeAll, e3]
      exact mergeAll_within hl hlw hlw' h2 (fun u hu => hv u (List.mem_cons_of_mem _ hu))
        (fun u hu => hw u (List.mem_cons_of_mem _ hu)) (same_merge x y a a' wx wy hs hxy) (wf_merge x a ha wx)
        (wf_merge y a' ha' wy) e2

theorem stage0_within {env env' : Env} (hl : ∀ f, Within (env.load f) (env'.load f)) (hlw : LoadsWf env)
    (hlw' : LoadsWf env') {vs ws : List Value} {r : Value} (hs : List.Forall₂ Same vs ws) (hv : ∀ v ∈ vs, Wf v ∧ Apart v)
    (hw : ∀ v ∈ ws, Wf v) (h : resolveStage0 env vs = .ok r) :
    ∃ r', resolveStage0 env' ws = .ok r' ∧ Same r r' ∧ Wf r ∧ Wf r' := by
  cases hs with
  | nil => cases h
  | @cons v w vs ws h1 h2 =>
    obtain ⟨x, e1, e2⟩ := bind_eq_ok.1 h
    obtain ⟨hv1, hv2⟩ := hv v (by simp)
    obtain ⟨y, e3, hxy⟩ := expand_within hl hv2 hv1 (hw w (by simp)) h1 x e1
    rw [resolveStage0, e3]
    exact mergeAll_within hl hlw hlw' h2 (fun u hu => hv u (List.mem_cons_of_mem _ hu))
      (fun u hu => hw u (List.mem_cons_of_mem _ hu)) hxy (expand_expanded hlw v x hv1 e1).1
      (expand_expanded hlw' w y (hw w (by simp)) e3).1 e2

theorem stages_within {env env' : Env} (hvar : ∀ p, env'.var p = env.var p)
    (hl : ∀ f, Within (env.load f) (env'.load f)) (hlw : LoadsWf env)
    (hlw' : LoadsWf env') {vs ws : List Value} (hs : List.Forall₂ Same vs ws) (hv : ∀ v ∈ vs, Wf v ∧ Apart v)
    (hw : ∀ v ∈ ws, Wf v) (fuel : Nat) :
    Within ((resolveStage0 env vs).bind (resolveStage1 env fuel)) ((resolveStage0 env' ws).bind (resolveStage1 env' fuel)) := by
  intro r h
  obtain ⟨x, h1, h2⟩ := bind_eq_ok.1 h
  obtain ⟨y, h3, h4, h5, h6⟩ := stage0_within hl hlw hlw' hs hv hw h1
  rw [h3]
  exact resolve_within hvar hl h4 h5 h6 fuel x y h5 h6 h4 r h2

end OniComb.Hocon
