import Verif.EndToEnd.Flagged

/-!
# What a pixel of an L2b product depends on: C184

The model is that of `Verif/EndToEnd/L2b.lean` (`prescan_biassub` with the offset of the noise maps, `correct_nonlinearity`,
`convert_to_electrons`, `em_gain_division`, `dark_subtraction` with noise maps, `desmear`, `flat_division`). The flags, which the cosmic ray search
computes from the pixels of a row, are part of the frame here.
-/

noncomputable section

namespace Corgi.Cone

open Corgi.Det Corgi.Arith Corgi.EndToEnd Corgi.Flagged

/-! ## Specification -/

/-- Two raw frames agree where it matters for pixel `(r, c)`: in the rows up to `r`, in columns 800 to 999
of the prescan and in column `c` of the image. -/
structure Agree (r c : ℕ) (x y : Raw) : Prop where
  prescan : ∀ s j, s ≤ r → 800 ≤ j → j < 1000 → y.l1.data.px (13 + s) j = x.l1.data.px (13 + s) j
  column : ∀ s, s ≤ r → y.l1.data.px (13 + s) (1088 + c) = x.l1.data.px (13 + s) (1088 + c)

/-- The conditions under which a dataset is processed: on headers, shapes and calibrations. -/
structure Accepted (m : Maps) (F : Flat) (xs : List Raw) : Prop where
  ne : xs ≠ []
  same : ∀ x ∈ xs, ∀ y ∈ xs, x.fr.exptime = y.fr.exptime ∧ x.fr.emC = y.fr.emC
  maps : (∀ p, 0 ≤ m.C p) ∧ ∀ p, 0 ≤ m.D p
  gain : ∀ x ∈ xs.head?, 1 ≤ emGain x.fr
  layers : ∀ x ∈ xs, x.fr.img.layers ≠ []
  shape : ∀ x ∈ xs, x.fr.img.shape = m.shape
  flat : F.shape = m.shape ∧ m.shape.length = 2

/-! ## Which datasets are processed -/

theorem emDiv_layers (k ek : ℝ) (f : Fr) : (emDiv (toElectrons k ek f)).img.layers ≠ [] ↔ f.img.layers ≠ [] := by
  simp only [emDiv, toElectrons]
  cases f.img.layers <;> simp

theorem l2b_accepts {track : Bool} {junk : Ix → ℝ} {k ek rowread : ℝ} {m : Maps} {F : Flat} {fs : List Fr} :
    (∃ out, l2b track junk k ek rowread m F fs = .ok out) ↔ fs ≠ [] ∧
      (∀ f ∈ fs, ∀ g ∈ fs, f.exptime = g.exptime ∧ f.emC = g.emC) ∧ ((∀ p, 0 ≤ m.C p) ∧ ∀ p, 0 ≤ m.D p) ∧
      (∀ f ∈ fs.head?, 1 ≤ emGain f) ∧ (∀ f ∈ fs, f.img.layers ≠ []) ∧ (∀ f ∈ fs, f.img.shape = m.shape) ∧
      F.shape = m.shape ∧ m.shape.length = 2 := by
  constructor
  · rintro ⟨out, h⟩
    rw [Batch.l2b_eq] at h
    obtain ⟨gs, h1, h2⟩ := h
    obtain ⟨p, l, d, hfs, hu, hd, -⟩ := darkSubMaps_ok h1
    have hne : fs ≠ [] := by rintro rfl; cases hfs
    obtain ⟨f0, l0, rfl⟩ := List.exists_cons_of_ne_nil hne
    rw [List.map_cons, List.cons.injEq] at hfs
    obtain ⟨hf0, -⟩ := hfs
    have hd' := hd
    unfold synthDark at hd'
    split at hd'
    · cases hd'
    rename_i hn
    push Not at hn
    have hsh : d.shape = m.shape := by cases hd'; rfl
    have hk := darkSubMaps_keeps h1
    have hmap : List.Forall₂ (fun f g => subFrame track d f = .ok g) ((f0 :: l0).map fun f => emDiv (toElectrons k ek f)) gs := by
      rw [← hf0] at hd
      rw [List.map_cons] at h1 ⊢
      unfold darkSubMaps at h1
      dsimp only at h1
      rcases ite_eq_iff.1 h1 with ⟨_, h1⟩ | ⟨_, h1⟩
      · cases h1
      · rw [hd] at h1
        exact mapM_ok_iff.1 h1
    have hfl := (C39_flat_accepts_iff track junk F (gs.map (desmearFr rowread)) (by
      intro f hf
      obtain ⟨g, hg, rfl⟩ := List.mem_map.1 hf
      obtain ⟨e, -, he⟩ := forall₂_right hk hg
      exact he.2.1)).1 ⟨out, h2⟩
    have hsub : ∀ f ∈ f0 :: l0, f.img.layers ≠ [] ∧ f.img.shape = m.shape ∧ F.shape = m.shape ∧ m.shape.length = 2 := by
      intro f hf
      rw [List.forall₂_map_left_iff] at hmap
      obtain ⟨g, hg, hs⟩ := forall₂_left hmap hf
      obtain ⟨i, hi, hgi⟩ := subFrame_ok hs
      obtain ⟨⟨-, a2⟩, a3⟩ := (Errs.addError_ok_iff track ⟨d.shape, d.err⟩ "dark_error" _).1 ⟨i, hi⟩
      have a4 : f.img.shape = m.shape := by rw [← hsh]; exact a2.symm
      have b1 := hfl (desmearFr rowread g) (List.mem_map.2 ⟨g, hg, rfl⟩)
      have b2 : (desmearFr rowread g).img.shape = f.img.shape := (subFrame_keeps hs).1
      rw [b2, a4] at b1
      exact ⟨(emDiv_layers k ek f).1 a3, a4, b1.2, by rw [← b1.2]; exact b1.1⟩
    refine ⟨hne, fun f hf g hg => ?_, ⟨hn.2.1, hn.1⟩, fun f hf => ?_, fun f hf => (hsub f hf).1, fun f hf => (hsub f hf).2.1,
      (hsub f0 List.mem_cons_self).2.2⟩
    · have hu' : ∀ f ∈ f0 :: l0, f.exptime = f0.exptime ∧ f.emC = f0.emC := by
        intro f hf
        have := hu (emDiv (toElectrons k ek f)) (List.mem_map.2 ⟨f, hf, rfl⟩)
        rw [← hf0] at this
        exact ⟨this.1, this.2.1⟩
      exact ⟨(hu' f hf).1.trans (hu' g hg).1.symm, (hu' f hf).2.trans (hu' g hg).2.symm⟩
    · cases hf
      have := hn.2.2
      rw [← hf0] at this
      exact this
  · rintro ⟨hne, hs, hp, hg, hl, hsh, hF, h2⟩
    obtain ⟨f0, l0, rfl⟩ := List.exists_cons_of_ne_nil hne
    obtain ⟨gs, hgs⟩ := darkSubMaps_exists (track := track) (m := m) (f := emDiv (toElectrons k ek f0))
      (fs := l0.map fun f => emDiv (toElectrons k ek f)) (by
        intro g hgm
        rw [← List.map_cons (f := fun f => emDiv (toElectrons k ek f))] at hgm
        obtain ⟨f, hf, rfl⟩ := List.mem_map.1 hgm
        exact ⟨(hs f hf f0 List.mem_cons_self).1, (hs f hf f0 List.mem_cons_self).2, rfl⟩) hp (hg f0 rfl) (by
        intro g hgm
        rw [← List.map_cons (f := fun f => emDiv (toElectrons k ek f))] at hgm
        obtain ⟨f, hf, rfl⟩ := List.mem_map.1 hgm
        exact ⟨hsh f hf, (emDiv_layers k ek f).2 (hl f hf)⟩) h2
    have hk := darkSubMaps_keeps hgs
    obtain ⟨out, ho⟩ := (C39_flat_accepts_iff track junk F (gs.map (desmearFr rowread)) (by
      intro f hf
      obtain ⟨g, hg, rfl⟩ := List.mem_map.1 hf
      obtain ⟨e, -, he⟩ := forall₂_right hk hg
      exact he.2.1)).2 (by
      intro f hf
      obtain ⟨g, hg, rfl⟩ := List.mem_map.1 hf
      obtain ⟨e, he, he'⟩ := forall₂_right hk hg
      rw [← List.map_cons (f := fun f => emDiv (toElectrons k ek f))] at he
      obtain ⟨f, hf, rfl⟩ := List.mem_map.1 he
      have : (desmearFr rowread g).img.shape = m.shape := he'.1.trans (hsh f hf)
      rw [this, hF]
      exact ⟨h2, rfl⟩)
    exact ⟨out, (Batch.l2b_eq ..).2 ⟨gs, hgs, ho⟩⟩

/-- **C184** Which datasets the recipe processes: exactly those with one exposure time and one commanded gain, a first frame with a gain of at
least one, noise maps that are not negative, and shapes that fit. No pixel value matters. -/
theorem C184_accepts (track : Bool) (junk : Ix → ℝ) {tab : NonLin.Table ℝ} (ht : NonLin.Good tab) (off offErr k ek rowread : ℝ)
    (m : Maps) (F : Flat) {xs : List Raw} (hx : ∀ x ∈ xs, Science x.l1) :
    (∃ out, recipe track junk tab off offErr k ek rowread m F xs = .ok out) ↔ Accepted m F xs := by
  obtain ⟨fs, hfs⟩ : ∃ fs, xs.mapM (l2a tab off offErr) = .ok fs := mapM_ok_exists.2 fun x hxm => by
    obtain ⟨f, hf, -⟩ := l2a_counts ht off offErr (hx x hxm)
    exact ⟨f, hf⟩
  have hr : recipe track junk tab off offErr k ek rowread m F xs = l2b track junk k ek rowread m F fs := by
    unfold recipe
    rw [hfs]
  have hF : List.Forall₂ (fun (x : Raw) (f : Fr) => f = { x.fr with data := f.data }) xs fs := by
    rw [mapM_ok_iff] at hfs
    clear hr
    induction hfs with
    | nil => exact .nil
    | cons a b ih =>
      refine .cons ?_ (ih fun z hz' => hx z (List.mem_cons_of_mem _ hz'))
      obtain ⟨f, h1, h2, -⟩ := l2a_counts ht off offErr (hx _ List.mem_cons_self)
      rw [a] at h1
      cases h1
      exact h2
  rw [hr, l2b_accepts]
  have hhead : ∀ P : Fr → Prop, (∀ (f : Fr) g, P { f with data := g } ↔ P f) →
      ((∀ f ∈ fs.head?, P f) ↔ ∀ x ∈ xs.head?, P x.fr) := by
    intro P hP
    cases hF with
    | nil => simp
    | cons a b =>
      simp only [List.head?_cons, Option.mem_def, Option.some.injEq, forall_eq']
      rw [a, hP]
  have hall : ∀ P : Fr → Prop, (∀ (f : Fr) g, P { f with data := g } ↔ P f) → ((∀ f ∈ fs, P f) ↔ ∀ x ∈ xs, P x.fr) := by
    intro P hP
    constructor
    · intro h x hxm
      obtain ⟨f, hf, e⟩ := forall₂_left hF hxm
      have := h f hf
      rwa [e, hP] at this
    · intro h f hf
      obtain ⟨x, hxm, e⟩ := forall₂_right hF hf
      rw [e, hP]
      exact h x hxm
  have hnil : fs ≠ [] ↔ xs ≠ [] := by cases hF <;> simp
  rw [hnil, hhead (fun f => 1 ≤ emGain f) (fun f g => Iff.rfl), hall (fun f => f.img.layers ≠ []) (fun f g => Iff.rfl),
    hall (fun f => f.img.shape = m.shape) (fun f g => Iff.rfl),
    hall (fun f => ∀ g ∈ fs, f.exptime = g.exptime ∧ f.emC = g.emC) (fun f g => Iff.rfl)]
  have h2 : ∀ x : Raw, (∀ g ∈ fs, x.fr.exptime = g.exptime ∧ x.fr.emC = g.emC) ↔
      ∀ y ∈ xs, x.fr.exptime = y.fr.exptime ∧ x.fr.emC = y.fr.emC := fun x =>
    hall (fun g => x.fr.exptime = g.exptime ∧ x.fr.emC = g.emC) (fun f g => Iff.rfl)
  simp only [h2]
  exact ⟨fun ⟨a, b, c, d, e, f, g⟩ => ⟨a, b, c, d, e, f, g⟩, fun ⟨a, b, c, d, e, f, g⟩ => ⟨a, b, c, d, e, f, g⟩⟩

/-! ## What a pixel depends on -/

theorem counts_agree {r c : ℕ} {x y : Raw} (h : Agree r c x y) (hf : y.fr = x.fr) (tab : NonLin.Table ℝ) (off : ℝ) {s : ℕ} (hs : s ≤ r) :
    counts tab off y s c = counts tab off x s c := by
  have hb : rowBias y.l1 sciPrescan 800 1000 off (13 + s) = rowBias x.l1 sciPrescan 800 1000 off (13 + s) := by
    unfold rowBias
    congr 2
    refine List.map_congr_left fun j hj => ?_
    rw [List.mem_range'_1] at hj
    have h0 : sciPrescan.c0 = 0 := rfl
    exact h.prescan s j hs (by omega) (by omega)
  unfold counts
  rw [hb, hf, h.column s hs]

/-- The two runs pixel by pixel: the dark is the same, so only the counts of the column differ. -/
theorem runs {track : Bool} {junk : Ix → ℝ} {tab : NonLin.Table ℝ} (ht : NonLin.Good tab) {off offErr k ek rowread : ℝ} {m : Maps} {F : Flat}
    {xs ys : List Raw} (hx : ∀ x ∈ xs, Science x.l1) (hy : ∀ y ∈ ys, Science y.l1) (hxy : List.Forall₂ (fun x y : Raw => y.fr = x.fr) xs ys)
    {out out' : List Fr} (ho : recipe track junk tab off offErr k ek rowread m F xs = .ok out)
    (ho' : recipe track junk tab off offErr k ek rowread m F ys = .ok out') :
    List.Forall₂ (fun (p : Raw × Raw) (q : Fr × Fr) => q.2.dq = q.1.dq ∧ ∀ r c, r < 1024 → c < 1024 → F.data [r, c] ≠ 0 →
      q.2.data [r, c] - q.1.data [r, c] = k / emGain p.1.fr / F.data [r, c] *
        leak (rowread / p.1.fr.exptime) (fun s => counts tab off p.2 s c - counts tab off p.1 s c) r)
      (xs.zip ys) (out.zip out') := by
  obtain ⟨x0, d, hx0, hd, hX⟩ := recipe_px ht hx ho
  obtain ⟨y0, d', hy0, hd', hY⟩ := recipe_px ht hy ho'
  have hdd : d' = d := by
    cases hxy with
    | nil => cases hx0
    | cons a b =>
      cases hx0
      cases hy0
      rw [a, hd] at hd'
      exact (Except.ok.inj hd').symm
  subst hdd
  clear hd hd' hx0 hy0 ho ho' hx hy
  induction hxy generalizing out out' with
  | nil => cases hX; cases hY; exact .nil
  | @cons x y xs ys a b ih =>
    cases hX with
    | @cons _ o _ out a1 b1 =>
    cases hY with
    | @cons _ o' _ out' a2 b2 =>
    refine .cons ⟨?_, fun r c hr hc hn => ?_⟩ (ih b2 b1)
    · dsimp only
      rw [a1.2, a2.2, a]
    · dsimp only
      rw [a1.1 r c hr hc hn, a2.1 r c hr hc hn, a, ← sub_div, ← leak_sub]
      have : (fun s => counts tab off y s c * k / emGain x.fr - d'.data [s, c] - (counts tab off x s c * k / emGain x.fr - d'.data [s, c])) =
          fun s => k / emGain x.fr * (counts tab off y s c - counts tab off x s c) := by
        funext s
        ring
      rw [this, leak_mul]
      ring

/-- **C184** A pixel of an L2b frame depends on nothing but its cone: other pixels of the frame, and all pixels of the other frames of the
dataset, can have any values, also NaN, without changing it. -/
theorem C184_cone {track : Bool} {junk : Ix → ℝ} {tab : NonLin.Table ℝ} (ht : NonLin.Good tab) {off offErr k ek rowread : ℝ} {m : Maps}
    {F : Flat} {xs ys : List Raw} (hx : ∀ x ∈ xs, Science x.l1) (hy : ∀ y ∈ ys, Science y.l1)
    (hxy : List.Forall₂ (fun x y : Raw => y.fr = x.fr) xs ys) {out : List Fr}
    (ho : recipe track junk tab off offErr k ek rowread m F xs = .ok out) :
    ∃ out', recipe track junk tab off offErr k ek rowread m F ys = .ok out' ∧
      List.Forall₂ (fun (p : Raw × Raw) (q : Fr × Fr) => q.2.dq = q.1.dq ∧ ∀ r c, r < 1024 → c < 1024 → F.data [r, c] ≠ 0 →
        Agree r c p.1 p.2 → q.2.data [r, c] = q.1.data [r, c]) (xs.zip ys) (out.zip out') := by
  have hacc := (C184_accepts track junk ht off offErr k ek rowread m F hx).1 ⟨out, ho⟩
  have hm : ∀ y ∈ ys, ∃ x ∈ xs, y.fr = x.fr := fun y hyy => forall₂_right hxy hyy
  obtain ⟨out', ho'⟩ := (C184_accepts track junk ht off offErr k ek rowread m F hy).2
    { ne := by rintro rfl; cases hxy; exact hacc.ne rfl
      same := fun y hyy z hz => by
        obtain ⟨x, hx1, e1⟩ := hm y hyy
        obtain ⟨x', hx2, e2⟩ := hm z hz
        rw [e1, e2]
        exact hacc.same x hx1 x' hx2
      maps := hacc.maps
      gain := fun y hyy => by
        cases hxy with
        | nil => cases hyy
        | cons a b =>
          cases hyy
          rw [a]
          exact hacc.gain _ rfl
      layers := fun y hyy => by
        obtain ⟨x, hx1, e1⟩ := hm y hyy
        rw [e1]
        exact hacc.layers x hx1
      shape := fun y hyy => by
        obtain ⟨x, hx1, e1⟩ := hm y hyy
        rw [e1]
        exact hacc.shape x hx1
      flat := hacc.flat }
  refine ⟨out', ho', ?_⟩
  have hr := runs ht hx hy hxy ho ho'
  have hp : ∀ p ∈ xs.zip ys, p.2.fr = p.1.fr := fun p hp => (List.forall₂_iff_zip.1 hxy).2 hp
  refine List.forall₂_iff_zip.2 ⟨hr.length_eq, fun {p q} hpq => ?_⟩
  obtain ⟨h1, h2⟩ := (List.forall₂_iff_zip.1 hr).2 hpq
  refine ⟨h1, fun r c hr' hc hn ha => ?_⟩
  have h3 := h2 r c hr' hc hn
  rw [leak_zero _ (fun s hs => by rw [counts_agree ha (hp p (List.of_mem_zip hpq).1) tab off hs, sub_self]), mul_zero] at h3
  linarith

/-- **C184** Every pixel of the column of the cone matters: for a linear response, if two frames differ in one image pixel of the column, not
behind row `r`, then the pixels of L2b differ by a stated amount, which is not zero unless there is no light during the read-out and the pixel is
in an earlier row. -/
theorem C184_column {track : Bool} {junk : Ix → ℝ} {tab : NonLin.Table ℝ} (ht : NonLin.Good tab) {off offErr k ek rowread : ℝ} {m : Maps}
    {F : Flat} {x y : Raw} (hx : Science x.l1) (hy : Science y.l1) (hf : y.fr = x.fr) (hl : ∀ v, NonLin.relgain tab (emGain x.fr) v = 1)
    {o o' : Fr} (ho : recipe track junk tab off offErr k ek rowread m F [x] = .ok [o])
    (ho' : recipe track junk tab off offErr k ek rowread m F [y] = .ok [o']) {r c i : ℕ} (hi : i ≤ r) (hr : r < 1024) (hc : c < 1024)
    (hn : F.data [r, c] ≠ 0) {b u v : ℝ} (hpx : ∀ s j, (s, j) ≠ (13 + i, 1088 + c) → y.l1.data.px s j = x.l1.data.px s j)
    (hb : rowBias x.l1 sciPrescan 800 1000 off (13 + i) = some b)
    (hu : x.l1.data.px (13 + i) (1088 + c) = some u) (hv : y.l1.data.px (13 + i) (1088 + c) = some v) :
    o'.data [r, c] - o.data [r, c] = k / emGain x.fr / F.data [r, c] * ((if i = r then 1 else 0) -
      rowread / x.fr.exptime * (1 + rowread / x.fr.exptime) ^ ((i : ℤ) - r - 1)) * (v - u) ∧
    (k ≠ 0 → emGain x.fr ≠ 0 → 1 + rowread / x.fr.exptime ≠ 0 → (i = r ∨ rowread / x.fr.exptime ≠ 0) →
      (o'.data [r, c] = o.data [r, c] ↔ v = u)) := by
  have hb' : ∀ s, rowBias y.l1 sciPrescan 800 1000 off s = rowBias x.l1 sciPrescan 800 1000 off s := by
    intro s
    unfold rowBias
    congr 2
    refine List.map_congr_left fun j hj => hpx s j fun he => ?_
    rw [List.mem_range'_1] at hj
    have h0 : sciPrescan.c0 = 0 := rfl
    simp only [Prod.mk.injEq] at he
    omega
  have hrun := runs ht (xs := [x]) (ys := [y]) (by simpa using hx) (by simpa using hy) (.cons hf .nil) ho ho'
  cases hrun with
  | cons h1 _ =>
    have h2 := h1.2 r c hr hc hn
    dsimp only at h2
    have hd : counts tab off y i c - counts tab off x i c = v - u := by
      unfold counts
      rw [hb', hb, hu, hv, hf]
      simp only [Det.sub, Option.map_some, Option.getD_some, hl]
      ring
    rw [leak_one _ hi (fun s _ hne => by
      unfold counts
      rw [hb', hf, hpx _ _ (fun he => hne (by simp only [Prod.mk.injEq] at he; omega)), sub_self]), hd] at h2
    have e : o'.data [r, c] - o.data [r, c] = k / emGain x.fr / F.data [r, c] * ((if i = r then 1 else 0) -
        rowread / x.fr.exptime * (1 + rowread / x.fr.exptime) ^ ((i : ℤ) - r - 1)) * (v - u) := by
      rw [h2]
      split <;> ring
    refine ⟨e, fun hk hg hρ hor => ⟨fun he => ?_, fun he => ?_⟩⟩
    · rw [he, sub_self, eq_comm] at e
      have h3 : k / emGain x.fr / F.data [r, c] ≠ 0 := div_ne_zero (div_ne_zero hk hg) hn
      have h4 : (if i = r then (1 : ℝ) else 0) - rowread / x.fr.exptime * (1 + rowread / x.fr.exptime) ^ ((i : ℤ) - r - 1) ≠ 0 := by
        split
        · rename_i hir
          subst hir
          rw [show (i : ℤ) - i - 1 = -1 by ring, zpow_neg_one]
          have : (1 : ℝ) - rowread / x.fr.exptime * (1 + rowread / x.fr.exptime)⁻¹ = (1 + rowread / x.fr.exptime)⁻¹ := by
            generalize rowread / x.fr.exptime = ρ at *
            field_simp
            ring
          rw [this]
          exact inv_ne_zero hρ
        · rename_i hir
          rw [zero_sub, neg_ne_zero]
          exact mul_ne_zero (hor.resolve_left hir) (zpow_ne_zero _ hρ)
      have := (mul_eq_zero.1 e).resolve_left (mul_ne_zero h3 h4)
      linarith
    · rw [he, sub_self, mul_zero] at e
      linarith

/-- **C184** The prescan of every row of the cone matters: for a linear response, if the bias of one row is different, the pixel of L2b is. -/
theorem C184_prescan {track : Bool} {junk : Ix → ℝ} {tab : NonLin.Table ℝ} (ht : NonLin.Good tab) {off offErr k ek rowread : ℝ} {m : Maps}
    {F : Flat} {x y : Raw} (hx : Science x.l1) (hy : Science y.l1) (hf : y.fr = x.fr) (hl : ∀ v, NonLin.relgain tab (emGain x.fr) v = 1)
    {o o' : Fr} (ho : recipe track junk tab off offErr k ek rowread m F [x] = .ok [o])
    (ho' : recipe track junk tab off offErr k ek rowread m F [y] = .ok [o']) {r c i : ℕ} (hi : i ≤ r) (hr : r < 1024) (hc : c < 1024)
    (hn : F.data [r, c] ≠ 0) {u b b' : ℝ} (hpx : ∀ s j, s ≠ 13 + i ∨ 1000 ≤ j → y.l1.data.px s j = x.l1.data.px s j)
    (hb : rowBias x.l1 sciPrescan 800 1000 off (13 + i) = some b) (hb' : rowBias y.l1 sciPrescan 800 1000 off (13 + i) = some b')
    (hu : x.l1.data.px (13 + i) (1088 + c) = some u) :
    o'.data [r, c] - o.data [r, c] = k / emGain x.fr / F.data [r, c] * ((if i = r then 1 else 0) -
      rowread / x.fr.exptime * (1 + rowread / x.fr.exptime) ^ ((i : ℤ) - r - 1)) * (b - b') := by
  have hrun := runs ht (xs := [x]) (ys := [y]) (by simpa using hx) (by simpa using hy) (.cons hf .nil) ho ho'
  cases hrun with
  | cons h1 _ =>
    have h2 := h1.2 r c hr hc hn
    dsimp only at h2
    have hd : counts tab off y i c - counts tab off x i c = b - b' := by
      unfold counts
      rw [hb', hb, hpx _ _ (Or.inr (by omega)), hu, hf]
      simp only [Det.sub, Option.map_some, Option.getD_some, hl]
      ring
    rw [leak_one _ hi (fun s _ hne => by
      have : rowBias y.l1 sciPrescan 800 1000 off (13 + s) = rowBias x.l1 sciPrescan 800 1000 off (13 + s) := by
        unfold rowBias
        congr 2
        exact List.map_congr_left fun j _ => hpx _ _ (Or.inl (by omega))
      unfold counts
      rw [this, hf, hpx _ _ (Or.inr (by omega)), sub_self]), hd] at h2
    rw [h2]
    split <;> ring

/-! ## Non-vacuity -/

/-- A header of a frame. -/
def head : Fr := ⟨fun _ => 0, ⟨[1024, 1024], [fun _ => 0], fun _ => none, []⟩, fun _ => 0, 10, 100, 100, none, 8, "DN"⟩

/-- A dark detector. -/
def dim : Detector := ⟨fun _ _ => 1, 1 / 1000, 10, fun _ _ => 1, fun _ _ => 2, fun _ _ => 3, 100, 8⟩

def calMaps : Maps :=
  ⟨[1024, 1024], fun _ => 3, fun _ => 2, fun _ => 1, fun _ => 0, fun _ => 0, fun _ => 0, fun _ => 0, fun _ => 0, fun _ => 0⟩

/-- A dataset that is processed, and one that agrees with it in a cone only. -/
example : Accepted calMaps ⟨[1024, 1024], fun _ => 1, fun _ => 0⟩ [⟨expose dim (fun _ => 0) 7 (fun _ _ => 5), head⟩] ∧
    Agree 3 4 ⟨expose dim (fun _ => 0) 7 (fun _ _ => 5), head⟩
      ⟨expose dim (fun _ => 0) 7 (fun r _ => if r ≤ 3 then 5 else 6), head⟩ := by
  refine ⟨⟨by simp, by simp, ⟨fun _ => by norm_num [calMaps], fun _ => by norm_num [calMaps]⟩, ?_, ?_, ?_, rfl, rfl⟩, ⟨?_, ?_⟩⟩
  · simp [head, emGain]
  · simp [head]
  · simp [head, calMaps]
  · intro s j hs h1 h2
    simp only [expose]
    rw [if_pos (by omega), if_pos (by omega)]
  · intro s hs
    simp only [expose]
    rw [if_neg (by omega), if_neg (by omega)]
    simp only [Nat.add_sub_cancel_left, Detector.counts, Detector.charge, dim]
    rw [if_pos hs]
    have : ((List.range (s + 1)).map fun i => (1 : ℝ) * (if i ≤ 3 then 5 else 6)) = (List.range (s + 1)).map fun i => (1 : ℝ) * 5 := by
      refine List.map_congr_left fun i hi => ?_
      rw [List.mem_range] at hi
      rw [if_pos (by omega)]
    rw [this]

end Corgi.Cone
