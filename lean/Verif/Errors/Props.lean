import Mathlib.Algebra.BigOperators.Group.List.Lemmas
import Mathlib.Tactic.Ring
import Mathlib.Tactic.Linarith
import Verif.Errors.Model

/-!
# C17: error terms
-/

namespace Corgi.Errs

/-- A term fits the image. -/
def Fits (i : Img) (e : Arr) : Prop := (e.shape.length = 2 ∨ e.shape.length = 3) ∧ e.shape = i.shape

/-- The total uncertainty: the first layer. -/
def total (i : Img) (p : List ℕ) : ℝ := (i.layers.head?.map (· p)).getD 0

/-- The individual layers. -/
def individual (i : Img) : List (List ℕ → ℝ) := i.layers.tail

theorem addError_ok_iff (track : Bool) (e : Arr) (n : String) (i : Img) :
    (∃ r, addError track e n i = .ok r) ↔ Fits i e ∧ i.layers ≠ [] := by
  unfold addError Fits Arr.ndim
  by_cases h1 : (e.shape.length = 2 ∨ e.shape.length = 3) ∧ e.shape = i.shape
  · have h2 : ¬ (¬ (e.shape.length = 2 ∨ e.shape.length = 3) ∨ e.shape ≠ i.shape) := by tauto
    rw [if_neg h2]
    cases hl : i.layers with
    | nil => simp
    | cons l ls =>
      refine ⟨fun _ => ⟨h1, by simp⟩, fun _ => ?_⟩
      cases track <;> exact ⟨_, rfl⟩
  · have h2 : (¬ (e.shape.length = 2 ∨ e.shape.length = 3) ∨ e.shape ≠ i.shape) := by tauto
    rw [if_pos h2]
    constructor
    · rintro ⟨r, hr⟩; cases hr
    · intro h; exact absurd h.1 h1

theorem addError_effect {track : Bool} {e : Arr} {n : String} {i r : Img}
    (h : addError track e n i = .ok r) :
    r.shape = i.shape ∧ r.layers ≠ [] ∧ i.layers ≠ [] ∧
    (∀ p, total r p = Real.sqrt (total i p ^ 2 + e.val p ^ 2)) ∧
    individual r = individual i ++ (if track then [e.val] else []) ∧
    r.history = i.history ++ ["Added error term: " ++ n] ∧
    r.names 1 = some "combined_error" ∧
    ∀ k, 1 < k → r.names k = if track = true ∧ k = i.layers.length + 1 then some n else i.names k := by
  unfold addError at h
  split at h
  · cases h
  · cases hl : i.layers with
    | nil => rw [hl] at h; cases h
    | cons l ls =>
      rw [hl] at h
      cases track
      · simp only [Bool.false_eq_true, if_false, Except.ok.injEq] at h
        subst h
        refine ⟨rfl, by simp, by simp, ?_, ?_, rfl, by simp, ?_⟩
        · intro p; simp [total, hl]
        · simp [individual, hl]
        · intro k hk
          simp [Function.update_of_ne (show k ≠ 1 by omega)]
      · simp only [if_true, Except.ok.injEq] at h
        subst h
        refine ⟨rfl, by simp, by simp, ?_, ?_, rfl, ?_, ?_⟩
        · intro p; simp [total, hl]
        · simp [individual, hl]
        · simp
        · intro k hk
          by_cases hk2 : k = ls.length + 2
          · subst hk2; simp
          · dsimp only
            rw [Function.update_of_ne (by simpa using hk2), Function.update_of_ne (by omega)]
            simp [hk2]

/-- **C17** Which sequences are accepted: every term must have the shape of the image, rank 2 or 3. -/
theorem C17_accepts_iff (track : Bool) (i : Img) (hi : i.layers ≠ []) (ts : List (Arr × String)) :
    (∃ r, addAll track i ts = .ok r) ↔ ∀ t ∈ ts, Fits i t.1 := by
  induction ts generalizing i with
  | nil => simp [addAll, pure, Except.pure]
  | cons t ts ih =>
    simp only [addAll, List.foldlM_cons, List.forall_mem_cons]
    cases ht : addError track t.1 t.2 i with
    | error e =>
      simp only [bind, Except.bind]
      constructor
      · rintro ⟨r, hr⟩; cases hr
      · rintro ⟨h1, _⟩
        obtain ⟨r, hr⟩ := (addError_ok_iff track t.1 t.2 i).2 ⟨h1, hi⟩
        rw [hr] at ht; cases ht
    | ok r1 =>
      obtain ⟨a1, a2, _⟩ := addError_effect ht
      simp only [bind, Except.bind]
      have := ih r1 a2
      unfold addAll at this
      rw [this]
      have hf := ((addError_ok_iff track t.1 t.2 i).1 ⟨_, ht⟩).1
      unfold Fits at *
      rw [a1]
      exact ⟨fun h => ⟨hf, h⟩, fun h => h.2⟩

/-- What a sequence of terms does. -/
theorem addAll_effect {track : Bool} {i r : Img} {ts : List (Arr × String)}
    (h : addAll track i ts = .ok r) :
    r.shape = i.shape ∧
    (∀ p, total r p ^ 2 = total i p ^ 2 + (ts.map fun t => t.1.val p ^ 2).sum) ∧
    (∀ p, ts ≠ [] → 0 ≤ total r p) ∧
    individual r = individual i ++ (if track then ts.map (fun t => t.1.val) else []) ∧
    r.history = i.history ++ ts.map (fun t => "Added error term: " ++ t.2) := by
  induction ts generalizing i with
  | nil =>
    simp only [addAll, List.foldlM_nil, pure, Except.pure, Except.ok.injEq] at h
    subst h
    simp
  | cons t ts ih =>
    simp only [addAll, List.foldlM_cons] at h
    cases ht : addError track t.1 t.2 i with
    | error e => rw [ht] at h; cases h
    | ok r1 =>
      rw [ht] at h
      simp only [bind, Except.bind] at h
      obtain ⟨a1, a2, _, a4, a5, a6, _⟩ := addError_effect ht
      obtain ⟨b1, b2, b3, b4, b5⟩ := ih (i := r1) h
      refine ⟨b1.trans a1, ?_, ?_, ?_, ?_⟩
      · intro p
        rw [b2, a4, Real.sq_sqrt (by positivity), List.map_cons, List.sum_cons]
        ring
      · intro p _
        by_cases hts : ts = []
        · subst hts
          simp only [List.foldlM_nil, pure, Except.pure, Except.ok.injEq] at h
          subst h
          rw [a4]; exact Real.sqrt_nonneg _
        · exact b3 p hts
      · rw [b4, a5]; cases track <;> simp
      · rw [b5, a6]; simp

/-- **C17** After any non-empty sequence of terms the total is the square root of the initial variance plus
the sum of the squared terms, whichever the setting. -/
theorem C17_total {track : Bool} {i r : Img} {ts : List (Arr × String)} (hts : ts ≠ [])
    (h : addAll track i ts = .ok r) (p : List ℕ) :
    total r p = Real.sqrt (total i p ^ 2 + (ts.map fun t => t.1.val p ^ 2).sum) := by
  obtain ⟨_, b2, b3, _⟩ := addAll_effect h
  rw [← b2, Real.sqrt_sq (b3 p hts)]

/-- **C17** The total never decreases. -/
theorem C17_monotone {track : Bool} {i r : Img} {ts : List (Arr × String)}
    (h : addAll track i ts = .ok r) (p : List ℕ) : total i p ≤ total r p := by
  by_cases hts : ts = []
  · subst hts
    simp only [addAll, List.foldlM_nil, pure, Except.pure, Except.ok.injEq] at h
    subst h; exact le_refl _
  · rw [C17_total hts h]
    apply Real.le_sqrt_of_sq_le
    have : 0 ≤ (ts.map fun t => t.1.val p ^ 2).sum := by
      apply List.sum_nonneg
      intro x hx
      obtain ⟨t, _, rfl⟩ := List.mem_map.1 hx
      positivity
    linarith

/-- **C17** The order of the terms does not matter for the total, nor for acceptance. -/
theorem C17_order {track track' : Bool} {i : Img} (hi : i.layers ≠ []) {ts ts' : List (Arr × String)}
    (hp : ts.Perm ts') :
    ((∃ r, addAll track i ts = .ok r) ↔ ∃ r, addAll track' i ts' = .ok r) ∧
    ∀ r r', addAll track i ts = .ok r → addAll track' i ts' = .ok r' → ∀ p, total r p = total r' p := by
  refine ⟨?_, ?_⟩
  · rw [C17_accepts_iff _ _ hi, C17_accepts_iff _ _ hi]
    exact ⟨fun h t ht => h t (hp.mem_iff.2 ht), fun h t ht => h t (hp.mem_iff.1 ht)⟩
  · intro r r' h h' p
    by_cases hts : ts = []
    · subst hts
      have : ts' = [] := hp.symm.eq_nil
      subst this
      simp only [addAll, List.foldlM_nil, pure, Except.pure, Except.ok.injEq] at h h'
      rw [← h, ← h']
    · have hts' : ts' ≠ [] := fun h0 => hts (by subst h0; exact hp.eq_nil)
      rw [C17_total hts h, C17_total hts' h']
      congr 2
      exact (hp.map _).sum_eq

/-- **C17** Layers: without tracking their number stays; with tracking each term is appended, in order. -/
theorem C17_layers {track : Bool} {i r : Img} {ts : List (Arr × String)} (hi : i.layers ≠ [])
    (h : addAll track i ts = .ok r) :
    individual r = individual i ++ (if track then ts.map (fun t => t.1.val) else []) ∧
    r.layers.length = i.layers.length + if track then ts.length else 0 := by
  have h4 := (addAll_effect h).2.2.2.1
  refine ⟨h4, ?_⟩
  have hr : r.layers ≠ [] := by
    clear h4
    induction ts generalizing i with
    | nil =>
      simp only [addAll, List.foldlM_nil, pure, Except.pure, Except.ok.injEq] at h
      subst h; exact hi
    | cons t ts ih =>
      simp only [addAll, List.foldlM_cons] at h
      cases ht : addError track t.1 t.2 i with
      | error e => rw [ht] at h; cases h
      | ok r1 =>
        rw [ht] at h
        exact ih (addError_effect ht).2.1 h
  have := congrArg List.length h4
  unfold individual at this
  have l1 := List.length_pos_of_ne_nil hr
  have l2 := List.length_pos_of_ne_nil hi
  cases track
  · simp at this ⊢; omega
  · simp at this ⊢; omega

/-- **C17** With tracking, the keyword `Layer_k` names the term that is layer `k`. -/
theorem C17_layer_names {i r : Img} {ts : List (Arr × String)} (hi : i.layers ≠ [])
    (h : addAll true i ts = .ok r) (k : ℕ) (hk : k < ts.length) :
    r.names (i.layers.length + 1 + k) = some (ts[k]).2 ∧
    r.layers[i.layers.length + k]? = some (ts[k]).1.val := by
  constructor
  · induction ts generalizing i k with
    | nil => simp at hk
    | cons t ts ih =>
      simp only [addAll, List.foldlM_cons] at h
      cases ht : addError true t.1 t.2 i with
      | error e => rw [ht] at h; cases h
      | ok r1 =>
        rw [ht] at h
        simp only [bind, Except.bind] at h
        obtain ⟨_, a2, a3, _, a5, _, _, a8⟩ := addError_effect ht
        have hlen : r1.layers.length = i.layers.length + 1 := by
          have := congrArg List.length a5
          simp [individual] at this
          have := List.length_pos_of_ne_nil a2
          have := List.length_pos_of_ne_nil a3
          omega
        have hpos := List.length_pos_of_ne_nil a3
        cases k with
        | succ k =>
          have := ih (i := r1) a2 h k (by simpa using hk)
          rw [hlen] at this
          rw [show i.layers.length + 1 + (k + 1) = i.layers.length + 1 + 1 + k by omega]
          simpa using this
        | zero =>
          -- later terms leave the earlier names
          have keep : ∀ (ts : List (Arr × String)) (q s : Img), q.layers ≠ [] → addAll true q ts = .ok s →
              ∀ m, 1 < m → m ≤ q.layers.length → s.names m = q.names m := by
            intro ts
            induction ts with
            | nil =>
              intro q s _ hs m _ _
              simp only [addAll, List.foldlM_nil, pure, Except.pure, Except.ok.injEq] at hs
              rw [hs]
            | cons t ts ih2 =>
              intro q s hq hs m hm1 hm2
              simp only [addAll, List.foldlM_cons] at hs
              cases hq1 : addError true t.1 t.2 q with
              | error e => rw [hq1] at hs; cases hs
              | ok q1 =>
                rw [hq1] at hs
                simp only [bind, Except.bind] at hs
                obtain ⟨_, c2, c3, _, c5, _, _, c8⟩ := addError_effect hq1
                have hl : q1.layers.length = q.layers.length + 1 := by
                  have := congrArg List.length c5
                  simp [individual] at this
                  have := List.length_pos_of_ne_nil c2
                  have := List.length_pos_of_ne_nil c3
                  omega
                rw [ih2 q1 s c2 hs m hm1 (by omega), c8 m hm1, if_neg (by omega)]
          rw [keep ts r1 r a2 h _ (by omega) (by omega), a8 _ (by omega)]
          simp
  · have h4 := (C17_layers hi h).1
    have hr : r.layers ≠ [] := by
      intro h0
      have := (C17_layers hi h).2
      rw [h0] at this
      have := List.length_pos_of_ne_nil hi
      simp at *
      omega
    obtain ⟨a, as, ha⟩ := List.exists_cons_of_ne_nil hr
    obtain ⟨b, bs, hb⟩ := List.exists_cons_of_ne_nil hi
    simp only [individual, ha, hb, List.tail_cons, if_true] at h4
    rw [ha, hb, h4]
    have e : (b :: bs).length + k = (bs.length + k) + 1 := by simp; omega
    rw [e, List.getElem?_cons_succ, List.getElem?_append_right (by omega)]
    simp [hk]

/-! ### interleaved rescaling -/

/-- Effect of one call on the variance, as a specification. -/
def Op.variance (p : List ℕ) (v : ℝ) : Op → ℝ
  | .add e _ => v + e.val p ^ 2
  | .scale e _ => v * e.val p ^ 2

theorem rescale_effect {e : Arr} {n : String} {i r : Img} (h : rescale e n i = .ok r) :
    r.shape = i.shape ∧ (∀ p, total r p = total i p * e.val p) ∧
    individual r = (individual i).map (fun l p => l p * e.val p) := by
  unfold rescale at h
  split at h
  · cases h
  · simp only [Except.ok.injEq] at h
    subst h
    refine ⟨rfl, ?_, ?_⟩
    · intro p
      cases hl : i.layers <;> simp [total, hl]
    · cases hl : i.layers <;> simp [individual, hl]

/-- **C17** Any sequence of terms and rescalings: the total variance is the fold of the two rules. -/
theorem C17_sequence {track : Bool} {i r : Img} {ops : List Op} (h : runOps track i ops = .ok r)
    (p : List ℕ) : total r p ^ 2 = ops.foldl (Op.variance p) (total i p ^ 2) := by
  induction ops generalizing i with
  | nil =>
    simp only [runOps, List.foldlM_nil, pure, Except.pure, Except.ok.injEq] at h
    rw [← h]; rfl
  | cons o ops ih =>
    simp only [runOps, List.foldlM_cons] at h
    cases ho : Op.run track i o with
    | error e => rw [ho] at h; cases h
    | ok r1 =>
      rw [ho] at h
      have := ih (i := r1) h
      rw [this, List.foldl_cons]
      congr 1
      cases o with
      | add e n =>
        obtain ⟨_, _, _, a4, _⟩ := addError_effect (show addError track e n i = .ok r1 from ho)
        rw [a4, Real.sq_sqrt (by positivity)]; rfl
      | scale e n =>
        obtain ⟨_, a2, _⟩ := rescale_effect (show rescale e n i = .ok r1 from ho)
        rw [a2]; simp only [Op.variance]; ring

/-- The part of the total variance not explained by the individual layers. -/
def unexplained (i : Img) (p : List ℕ) : ℝ := total i p ^ 2 - ((individual i).map fun l => l p ^ 2).sum

/-- **C17** With tracking on, the layers account for the total: the unexplained variance is not changed by a
new term and scaled with the rest by a rescaling; in particular if the image began with no uncertainty, the
total is the quadrature sum of its individual layers after any sequence of calls. -/
theorem C17_layers_explain_total {i r : Img} {ops : List Op} (h : runOps true i ops = .ok r) (p : List ℕ) :
    unexplained r p = unexplained i p * (ops.map fun o => match o with
      | .add _ _ => 1 | .scale e _ => e.val p ^ 2).prod := by
  induction ops generalizing i with
  | nil =>
    simp only [runOps, List.foldlM_nil, pure, Except.pure, Except.ok.injEq] at h
    rw [← h]; simp
  | cons o ops ih =>
    simp only [runOps, List.foldlM_cons] at h
    cases ho : Op.run true i o with
    | error e => rw [ho] at h; cases h
    | ok r1 =>
      rw [ho] at h
      have := ih (i := r1) h
      rw [this, List.map_cons, List.prod_cons, ← mul_assoc]
      congr 1
      cases o with
      | add e n =>
        obtain ⟨_, _, _, a4, a5, _⟩ := addError_effect (show addError true e n i = .ok r1 from ho)
        simp only [unexplained, a4, a5, if_true, List.map_append, List.sum_append, List.map_cons,
          List.map_nil, List.sum_cons, List.sum_nil]
        rw [Real.sq_sqrt (by positivity)]; ring
      | scale e n =>
        obtain ⟨_, a2, a3⟩ := rescale_effect (show rescale e n i = .ok r1 from ho)
        simp only [unexplained, a2, a3, List.map_map]
        have : ((individual i).map ((fun l : List ℕ → ℝ => l p ^ 2) ∘ fun l p => l p * e.val p)).sum =
            ((individual i).map fun l => l p ^ 2).sum * e.val p ^ 2 := by
          induction individual i with
          | nil => simp
          | cons l ls ihl => simp only [List.map_cons, List.sum_cons, ihl, Function.comp]; ring
        rw [this]; ring

/-! ### the constructor and the dataset -/

/-- **C17** Without tracking a constructed image has one layer (if the layer keywords are there), the
total. -/
theorem C17_construct {i r : Img} (hi : i.layers ≠ []) (h : construct false i = .ok r) :
    r.layers.length = 1 ∧ (∀ p, total r p = total i p) := by
  unfold construct at h
  obtain ⟨l, ls, hl⟩ := List.exists_cons_of_ne_nil hi
  split at h
  · split at h
    · simp only [Except.ok.injEq] at h
      subst h
      simp [total, hl]
    · cases h
  · rename_i hc
    simp only [Except.ok.injEq] at h
    subst h
    simp [hl] at hc
    simp [hl, hc]

/-- **C17** Without tracking, the constructor drops the individual layers and their names, and nothing else; with several layers it raises
`KeyError` if the name of one of them is absent. -/
theorem C17_construct_iff {i r : Img} : construct false i = .ok r ↔
    (1 < i.layers.length → ∀ k, 2 ≤ k → k ≤ i.layers.length → i.names k ≠ none) ∧ r.layers = i.layers.take 1 ∧
      (∀ k, r.names k = if 2 ≤ k ∧ k ≤ i.layers.length then none else i.names k) ∧ r.shape = i.shape ∧ r.history = i.history := by
  obtain ⟨a, b, c, d⟩ := r
  obtain ⟨a', b', c', d'⟩ := i
  unfold construct
  dsimp only
  by_cases hl : 1 < b'.length
  · simp only [Bool.not_false, Bool.true_and, hl, decide_true, if_true, forall_true_left]
    by_cases hn : ∀ k, 2 ≤ k → k ≤ b'.length → c' k ≠ none
    · rw [if_pos]
      · simp only [Except.ok.injEq, Img.mk.injEq]
        constructor
        · rintro ⟨rfl, rfl, rfl, rfl⟩
          exact ⟨hn, rfl, fun k => by simp, rfl, rfl⟩
        · rintro ⟨-, rfl, h, rfl, rfl⟩
          refine ⟨rfl, rfl, ?_, rfl⟩
          funext k
          rw [h k]
          simp
      · rw [List.all_eq_true]
        intro k hk
        rw [List.mem_range] at hk
        rw [Option.isSome_iff_ne_none]
        exact hn (k + 2) (by omega) (by omega)
    · rw [if_neg]
      · simp [hn]
      · intro hc
        apply hn
        intro k h2 hk
        rw [List.all_eq_true] at hc
        have := hc (k - 2) (by rw [List.mem_range]; omega)
        rw [Nat.sub_add_cancel h2] at this
        exact Option.isSome_iff_ne_none.1 this
  · rw [if_neg (by simpa using hl)]
    have : ∀ k, ¬ (2 ≤ k ∧ k ≤ b'.length) := fun k => by omega
    simp only [Except.ok.injEq, Img.mk.injEq, hl, false_implies, true_and, this, if_false]
    rw [List.take_of_length_le (by omega)]
    constructor
    · rintro ⟨rfl, rfl, rfl, rfl⟩
      simp
    · rintro ⟨rfl, h, rfl, rfl⟩
      exact ⟨rfl, rfl, (funext h).symm, rfl⟩

/-- **C17** Without tracking there is one layer throughout. -/
theorem C17_one_layer {i r r' : Img} (hi : i.layers ≠ []) (h : construct false i = .ok r)
    {ts : List (Arr × String)} (h' : addAll false r ts = .ok r') :
    r'.layers.length = 1 ∧ ∀ p, total r' p ^ 2 = total i p ^ 2 + (ts.map fun t => t.1.val p ^ 2).sum := by
  obtain ⟨c1, c2⟩ := C17_construct hi h
  have hr : r.layers ≠ [] := by intro h0; rw [h0] at c1; simp at c1
  refine ⟨?_, ?_⟩
  · rw [(C17_layers hr h').2, c1]; simp
  · intro p; rw [(addAll_effect h').2.1, c2]

/-- With the tracking setting on, the constructor drops nothing. -/
theorem C17_construct_tracked (i : Img) : construct true i = .ok i := by
  simp [construct]

/-- **C17** The dataset call adds to each frame its own layer of a stack. -/
theorem C17_dataset_stack {track : Bool} {n : String} {es : List Arr} {is rs : List Img}
    (h : addDataset track (.perFrame es) n is = .ok rs) :
    rs.length = is.length ∧ is.length ≤ es.length ∧
    ∀ (k : ℕ) (i r : Img) (e : Arr), is[k]? = some i → rs[k]? = some r → es[k]? = some e →
      addError track e n i = .ok r := by
  have key : ∀ (es : List Arr) (is rs : List Img), addPerFrame track n es is = .ok rs →
      rs.length = is.length ∧ is.length ≤ es.length ∧
      ∀ (k : ℕ) (i r : Img) (e : Arr), is[k]? = some i → rs[k]? = some r → es[k]? = some e →
        addError track e n i = .ok r := by
    intro es is
    induction is generalizing es with
    | nil =>
      intro rs h
      simp only [addPerFrame, Except.ok.injEq] at h
      subst h
      simp
    | cons i is ih =>
      intro rs h
      cases es with
      | nil => cases h
      | cons e es =>
        simp only [addPerFrame] at h
        cases h1 : addError track e n i with
        | error x => rw [h1] at h; cases h
        | ok r1 =>
          rw [h1] at h
          cases h2 : addPerFrame track n es is with
          | error x => rw [h2] at h; cases h
          | ok rs1 =>
            rw [h2] at h
            simp only [bind, Except.bind, pure, Except.pure, Except.ok.injEq] at h
            subst h
            obtain ⟨b1, b2, b3⟩ := ih es rs1 h2
            refine ⟨by simp [b1], by simpa using b2, ?_⟩
            intro k i' r' e' hi hr he
            cases k with
            | zero =>
              simp at hi hr he
              subst hi hr he
              exact h1
            | succ k =>
              simp at hi hr he
              exact b3 k i' r' e' hi hr he
  simp only [addDataset] at h
  cases h1 : addPerFrame track n es is with
  | error x => rw [h1] at h; cases h
  | ok rs1 =>
    rw [h1] at h
    simp only [bind, Except.bind] at h
    have : rs = rs1 := by
      cases rs1 with
      | nil => simpa [pure, Except.pure] using h.symm
      | cons a as =>
        simp only at h
        split at h
        · simpa [pure, Except.pure] using h.symm
        · cases h
    subst this
    exact key es is rs h1

/-- **C17** ... and the same layer to every frame when given one. -/
theorem C17_dataset_same {track : Bool} {n : String} {e : Arr} {is rs : List Img}
    (h : addDataset track (.same e) n is = .ok rs) :
    List.Forall₂ (fun i r => addError track e n i = .ok r) is rs := by
  simp only [addDataset] at h
  cases h1 : is.mapM (addError track e n) with
  | error x => rw [h1] at h; cases h
  | ok rs1 =>
    rw [h1] at h
    simp only [bind, Except.bind] at h
    have : rs = rs1 := by
      cases rs1 with
      | nil => simpa [pure, Except.pure] using h.symm
      | cons a as =>
        simp only at h
        split at h
        · simpa [pure, Except.pure] using h.symm
        · cases h
    subst this
    exact (mapM_ok_iff).1 h1

/-- Not vacuous: an image with an uncertainty of 3, a term of 4: total 5. -/
example : ∃ r, addAll true ⟨[1, 1], [fun _ => 3], fun _ => none, []⟩ [(⟨[1, 1], fun _ => 4⟩, "x")] = .ok r ∧
    total r [0, 0] = 5 := by
  obtain ⟨r, hr⟩ := (C17_accepts_iff true ⟨[1, 1], [fun _ => 3], fun _ => none, []⟩ (by simp)
    [(⟨[1, 1], fun _ => 4⟩, "x")]).2 (by simp [Fits])
  refine ⟨r, hr, ?_⟩
  rw [C17_total (by simp) hr]
  have : (total ⟨[1, 1], [fun _ => 3], fun _ => none, []⟩ [0, 0] ^ 2 +
      (List.map (fun t : Arr × String => t.1.val [0, 0] ^ 2) [(⟨[1, 1], fun _ => 4⟩, "x")]).sum : ℝ) = 5 ^ 2 := by
    simp [total]; norm_num
  rw [this, Real.sqrt_sq (by norm_num)]

end Corgi.Errs
