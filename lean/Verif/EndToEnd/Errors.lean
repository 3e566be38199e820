import Verif.EndToEnd.L2b

/-!
# Errors of the recipe from L1 to L2b (C147)

The steps of `l1_to_l2b.json` that change the error: `prescan_biassub` (l1_to_l2a.py 151), `convert_to_electrons`,
`em_gain_division`, `add_photon_noise` (l2a_to_l2b.py 8-42), `dark_subtraction` and `flat_division`, in the order of the recipe
and together with the steps that change values only: `correct_nonlinearity` (l1_to_l2a.py 288-331) and `desmear`
(l2a_to_l2b.py 388-425) give `update_after_processing_step` new data and no errors. Values and errors are reals: NaN in
one is 0 (L2a) or the value of `junk` (square root of a negative value), and the statements are about the other pixels; the
pixels with NaN are followed in `pixel`.
-/

noncomputable section

namespace Corgi.EndToEnd

open Corgi.Det Corgi.Arith Real
open Errs (total)

/-! ## Model -/

/-- An image as a function on index tuples. -/
def at2 (a : Img (Option ℝ)) : Ix → ℝ
  | [r, c] => (a.px r c).getD 0
  | _ => 0

/-- L1 to L2a for one frame, with its errors: l1_to_l2a.py 127-150 and 288-331. -/
def l2aE (track : Bool) (tab : NonLin.Table ℝ) (off offErr : ℝ) (x : Raw) : Except Err Fr :=
  match prescanBiasSub detectorAreas detectorAreas off offErr .image x.l1 with
  | .error _ => .error .bias
  | .ok o =>
    match Errs.addError track ⟨[o.newErr.nr, o.newErr.nc], at2 o.newErr⟩ "prescan_bias_sub"
        { x.fr.img with shape := [o.data.nr, o.data.nc], layers := o.err.map at2 } with
    | .error _ => .error .bias
    | .ok i =>
      match NonLin.correctFrame (some tab) none ⟨hdr x.fr, ravel o.data, ravel o.dq⟩ with
      | .error _ => .error .nonlin
      | .ok f => .ok { x.fr with data := unravel o.data.nc f.data, img := i }

open Classical in
/-- `add_photon_noise` for one frame, lines 22-35. -/
def photFr (track : Bool) (junk : Ix → ℝ) (f : Fr) : Except Arith.Err Fr :=
  match ofErrs (Errs.addError track ⟨f.img.shape, fun p =>
      if f.data p < 0 then junk p else if 1 < emGain f then sqrt (f.data p) * sqrt 2 else sqrt (f.data p)⟩
      "photnoise_error" f.img) with
  | .error e => .error e
  | .ok i => .ok { f with img := i }

/-- L2a to L2b for a dataset, with photon noise. -/
def l2bE (track : Bool) (junkP junk : Ix → ℝ) (k ek rowread : ℝ) (m : Maps) (F : Flat) (fs : List Fr) :
    Except Arith.Err (List Fr) :=
  match ((fs.map (toElectrons k ek)).map emDiv).mapM (photFr track junkP) with
  | .error e => .error e
  | .ok ps =>
    match darkSubMaps track m ps with
    | .error e => .error e
    | .ok gs => flatDiv track junk F (gs.map (desmearFr rowread))

/-- The error of one pixel of value `v` and error `e` in the same chain, NaN included; `ed` is the error of the dark, `F`
and `eF` the flat and its error, `w` the value that is divided by the flat. -/
def pixel (k ek G ed F eF w v : ℝ) (e : Option ℝ) : Option ℝ := do
  let e ← e
  let e ← photNoise G (v * k / G) (some (sqrt ((k * e) ^ 2 + (v * ek) ^ 2) / G))
  let e := sqrt (e ^ 2 + ed ^ 2)
  return sqrt ((e / F) ^ 2 + (w * eF / F ^ 2) ^ 2)

/-! ## Specification -/

/-- Excess noise of the gain register: it doubles the variance of the photons. -/
def excess (G : ℝ) : ℝ := open Classical in if 1 < G then 2 else 1

/-- Variance of `s`, where `s · F = k · v / G - dark` and the errors of `v`, `k`, the photons, the dark (fixed pattern,
dark current, clock-induced charge) and the flat are independent. -/
def variance (k ek G t eFpn eDark eCic F eF v e s : ℝ) : ℝ :=
  (((k * e) ^ 2 + (v * ek) ^ 2) / G ^ 2 + excess G * (k * v / G) + ((eFpn / G) ^ 2 + (t * eDark) ^ 2 + eCic ^ 2)) / F ^ 2
    + (s * eF / F) ^ 2

/-! ## The steps -/

theorem photFr_ok {track : Bool} {junk : Ix → ℝ} {f g : Fr} (h : photFr track junk f = .ok g) :
    g = { f with img := g.img } ∧ g.img.shape = f.img.shape ∧ g.img.layers ≠ [] ∧ f.img.layers ≠ [] ∧
      ∀ p, 0 ≤ f.data p → total g.img p ^ 2 = total f.img p ^ 2 + excess (emGain f) * f.data p := by
  unfold photFr at h
  generalize hE : Errs.addError track _ "photnoise_error" f.img = r at h
  cases r with
  | error e => cases h
  | ok i =>
    cases h
    obtain ⟨h1, h2, h3, h4, -⟩ := Errs.addError_effect hE
    refine ⟨rfl, h1, h2, h3, fun p hp => ?_⟩
    show total i p ^ 2 = _
    rw [h4 p]
    dsimp only
    rw [sq_sqrt (by positivity), if_neg (not_lt.2 hp)]
    unfold excess
    by_cases hG : 1 < emGain f
    · rw [if_pos hG, if_pos hG, mul_pow, sq_sqrt hp, sq_sqrt (by norm_num : (0 : ℝ) ≤ 2), mul_comm (2 : ℝ)]
    · rw [if_neg hG, if_neg hG, sq_sqrt hp, one_mul]

/-- What `l2bE` is, frame by frame: the intermediate frames. -/
theorem l2bE_ok {track : Bool} {junkP junk : Ix → ℝ} {k ek rowread : ℝ} {m : Maps} {F : Flat} {fs out : List Fr}
    (h : l2bE track junkP junk k ek rowread m F fs = .ok out) :
    ∃ ps gs d f₀, List.Forall₂ (fun f p => photFr track junkP (emDiv (toElectrons k ek f)) = .ok p) fs ps ∧
      f₀ ∈ fs ∧ (∃ p₀ ∈ ps, synthDark m p₀ = .ok d ∧ emGain p₀ = emGain f₀ ∧ ∀ p ∈ ps, p.exptime = p₀.exptime) ∧
      List.Forall₂ (DarkSubtracted d) ps gs ∧ List.Forall₂ (fun g o => FlatDivided F (desmearFr rowread g) o) gs out := by
  unfold l2bE at h
  cases hp : ((fs.map (toElectrons k ek)).map emDiv).mapM (photFr track junkP) with
  | error e => rw [hp] at h; cases h
  | ok ps =>
    rw [hp] at h
    dsimp only at h
    cases hg : darkSubMaps track m ps with
    | error e => rw [hg] at h; cases h
    | ok gs =>
      rw [hg] at h
      dsimp only at h
      have h1 := mapM_ok_iff.1 hp
      rw [List.map_map, List.forall₂_map_left_iff] at h1
      have h2 := C39_flat h
      rw [List.forall₂_map_left_iff] at h2
      obtain ⟨p₀, l, d, hps, hu, hd, hall⟩ := darkSubMaps_ok hg
      obtain ⟨f₀, hf₀, hfp⟩ := forall₂_right h1 (b := p₀) (by rw [hps]; simp)
      refine ⟨ps, gs, d, f₀, h1, hf₀, ⟨p₀, by rw [hps]; simp, hd, ?_, fun p hp => (hu p hp).1⟩, hall, h2⟩
      rw [(photFr_ok hfp).1]
      rfl

/-- **C147.** The squared error of the product is the sum of the independent contributions, for every pixel whose value is
not negative before the dark is subtracted. -/
theorem C147_total_partial {track : Bool} {junkP junk : Ix → ℝ} {k ek rowread : ℝ} {m : Maps} {F : Flat} {fs out : List Fr}
    (h : l2bE track junkP junk k ek rowread m F fs = .ok out) (hg : ∀ f ∈ fs, ∀ f' ∈ fs, emGain f = emGain f')
    (hl : ∀ f ∈ fs, f.img.layers ≠ []) :
    List.Forall₂ (fun f o => ∀ p, F.data p ≠ 0 → 0 ≤ f.data p * k / emGain f →
      total o.img p ^ 2 = variance k ek (emGain f) f.exptime (m.eF p) (m.eD p) (m.eC p) (F.data p) (F.err p) (f.data p)
        (total f.img p) (o.data p)) fs out := by
  obtain ⟨ps, gs, d, f₀, h1, hf₀, ⟨p₀, hp₀, hd, hg₀, hu⟩, h2, h3⟩ := l2bE_ok h
  rw [List.forall₂_iff_get] at h1 h2 h3 ⊢
  refine ⟨by rw [h1.1, h2.1, h3.1], fun i hif hio p hF hv => ?_⟩
  have hip : i < ps.length := by rw [← h1.1]; exact hif
  have hig : i < gs.length := by rw [← h2.1]; exact hip
  set f := fs.get ⟨i, hif⟩ with hf
  have hfm : f ∈ fs := List.get_mem _ _
  obtain ⟨e1, -, -, -, e2⟩ := photFr_ok (h1.2 i hif hip)
  obtain ⟨-, -, a3, -⟩ := h2.2 i hip hig
  obtain ⟨b1, -, b3, -⟩ := h3.2 i hig hio
  have hpx : (ps.get ⟨i, hip⟩).exptime = f.exptime := by rw [e1]; rfl
  have ht : p₀.exptime = f.exptime := by rw [← hpx, hu _ (List.get_mem _ _)]
  have herr := (synthDark_ok hd).2.2.2.2.1 p
  rw [hg₀, hg f₀ hf₀ f hfm, ht] at herr
  have hdat : (emDiv (toElectrons k ek f)).data p = f.data p * k / emGain f := rfl
  have hgn : emGain (emDiv (toElectrons k ek f)) = emGain f := rfl
  have e3 := e2 p (by rw [hdat]; exact hv)
  rw [hgn, hdat, (C46_em (toElectrons k ek f)).2.1 p, C46_electrons_error k ek f (hl f hfm) p] at e3
  have hG' : emGain (toElectrons k ek f) = emGain f := rfl
  rw [hG', mul_pow, sq_sqrt (by positivity)] at e3
  have ha := a3 p
  have hb := b3 p hF
  have hdes : total (desmearFr rowread (gs.get ⟨i, hig⟩)).img p = total (gs.get ⟨i, hig⟩).img p := rfl
  have hw := b1 p hF
  rw [hb, sq_sqrt (by positivity), hdes, ha, div_pow, sq_sqrt (by positivity), e3, herr, sq_sqrt (by positivity), ← hw]
  unfold variance
  by_cases hG : emGain f = 0
  · rw [hG]
    field_simp
  · field_simp

/-- Two frames that differ in their errors only. -/
def Same (f g : Fr) : Prop := g = { f with img := g.img }

theorem subFrame_same {track : Bool} {d : DarkCal} {f f' g g' : Fr} (h : Same f f') (hg : subFrame track d f = .ok g)
    (hg' : subFrame track d f' = .ok g') : Same g g' := by
  obtain ⟨i, -, rfl⟩ := subFrame_ok hg
  obtain ⟨i', -, rfl⟩ := subFrame_ok hg'
  unfold Same at h ⊢
  rw [h]

theorem flatFrame_same {track : Bool} {junk : Ix → ℝ} {F : Flat} {f f' g g' : Fr} (h : Same f f')
    (hg : flatFrame track junk F f = .ok g) (hg' : flatFrame track junk F f' = .ok g') : Same g g' := by
  unfold flatFrame at hg hg'
  dsimp only at hg hg'
  split at hg
  · cases hg
  split at hg
  · cases hg
  split at hg'
  · cases hg'
  split at hg'
  · cases hg'
  cases hg
  cases hg'
  unfold Same at h ⊢
  rw [h]

theorem mapM_same {f : Fr → Except Arith.Err Fr} (hf : ∀ a b x y, Same a b → f a = .ok x → f b = .ok y → Same x y)
    {l l' r r' : List Fr} (h : List.Forall₂ Same l l') (hr : l.mapM f = .ok r) (hr' : l'.mapM f = .ok r') :
    List.Forall₂ Same r r' := by
  have h1 := mapM_ok_iff.1 hr
  have h2 := mapM_ok_iff.1 hr'
  rw [List.forall₂_iff_get] at h h1 h2 ⊢
  refine ⟨by rw [← h1.1, h.1, h2.1], fun i hi hi' => ?_⟩
  exact hf _ _ _ _ (h.2 i (by omega) (by omega)) (h1.2 i (by omega) hi) (h2.2 i (by omega) hi')

theorem darkSubMaps_same {track : Bool} {m : Maps} {fs fs' gs gs' : List Fr} (h : List.Forall₂ Same fs fs')
    (hg : darkSubMaps track m fs = .ok gs) (hg' : darkSubMaps track m fs' = .ok gs') : List.Forall₂ Same gs gs' := by
  cases h with
  | nil => cases hg
  | @cons a b l l' hab hl =>
    have hs : synthDark m b = synthDark m a := by
      unfold Same at hab
      rw [hab]
      rfl
    unfold darkSubMaps at hg hg'
    rcases ite_eq_iff.1 hg with ⟨_, hg⟩ | ⟨_, hg⟩
    · cases hg
    rcases ite_eq_iff.1 hg' with ⟨_, hg'⟩ | ⟨_, hg'⟩
    · cases hg'
    rw [hs] at hg'
    cases hd : synthDark m a with
    | error e => rw [hd] at hg; cases hg
    | ok d =>
      rw [hd] at hg hg'
      exact mapM_same (fun _ _ _ _ h h1 h2 => subFrame_same h h1 h2) (List.Forall₂.cons hab hl) hg hg'

/-- **C147.** The recipe with photon noise runs on whatever the recipe without it runs on. -/
theorem C147_runs {track : Bool} (junkP : Ix → ℝ) {junk : Ix → ℝ} {k ek rowread : ℝ} {m : Maps} {F : Flat} {fs out : List Fr}
    (h : l2b track junk k ek rowread m F fs = .ok out) :
    ∃ out', l2bE track junkP junk k ek rowread m F fs = .ok out' := by
  unfold l2b at h
  set es := (fs.map (toElectrons k ek)).map emDiv with hes
  cases hg : darkSubMaps track m es with
  | error e => rw [hg] at h; cases h
  | ok gs =>
    rw [hg] at h
    dsimp only at h
    cases ho : flatDiv track junk F (gs.map (desmearFr rowread)) with
    | error e => rw [ho] at h; cases h
    | ok o =>
      obtain ⟨e₀, l, d, hl, hu, hd, hall⟩ := darkSubMaps_ok hg
      have hfit : ∀ e ∈ es, e.img.shape.length = 2 ∧ d.shape = e.img.shape ∧ F.shape = e.img.shape ∧ e.img.layers ≠ [] := by
        intro e he
        have hmm : es.mapM (subFrame track d) = .ok gs := by
          rw [hl] at hg ⊢
          unfold darkSubMaps at hg
          rcases ite_eq_iff.1 hg with ⟨_, hg⟩ | ⟨_, hg⟩
          · cases hg
          · rw [hd] at hg; exact hg
        obtain ⟨g, hgm, hsub⟩ := forall₂_left (mapM_ok_iff.1 hmm) he
        obtain ⟨i, hi, hgi⟩ := subFrame_ok hsub
        obtain ⟨i1, i2, i3, -⟩ := Errs.addError_effect hi
        have hF := (C39_flat_accepts_iff track junk F (gs.map (desmearFr rowread)) (by
          intro f hf
          obtain ⟨g', hg', rfl⟩ := List.mem_map.1 hf
          obtain ⟨e', -, hs'⟩ := forall₂_right (mapM_ok_iff.1 hmm) hg'
          exact (subFrame_keeps hs').2)).1 ⟨o, ho⟩ (desmearFr rowread g) (List.mem_map.2 ⟨g, hgm, rfl⟩)
        have hsh : (desmearFr rowread g).img.shape = e.img.shape := by
          show g.img.shape = _
          rw [hgi]
          exact i1
        rw [hsh] at hF
        have hds := ((Errs.addError_ok_iff track ⟨d.shape, d.err⟩ "dark_error" e.img).1 ⟨i, hi⟩).1.2
        exact ⟨by rw [← hF.2]; exact hF.1, hds, hF.2, i3⟩
      have hp : ∃ ps, es.mapM (photFr track junkP) = .ok ps := by
        refine mapM_ok_exists.2 fun e he => ?_
        obtain ⟨a1, a2, a3, a4⟩ := hfit e he
        unfold photFr
        generalize hx : (fun p => if e.data p < 0 then junkP p else if 1 < emGain e then sqrt (e.data p) * sqrt 2
          else sqrt (e.data p)) = v
        obtain ⟨i, hi⟩ := (Errs.addError_ok_iff track ⟨e.img.shape, v⟩ "photnoise_error" e.img).2 ⟨⟨Or.inl a1, rfl⟩, a4⟩
        rw [hi]
        exact ⟨_, rfl⟩
      obtain ⟨ps, hps⟩ := hp
      have hpp := mapM_ok_iff.1 hps
      have hpe : ∀ p ∈ ps, ∃ e ∈ es, Same e p ∧ p.img.shape = e.img.shape ∧ p.img.layers ≠ [] := by
        intro p hp
        obtain ⟨e, he, hep⟩ := forall₂_right hpp hp
        obtain ⟨b1, b2, b3, -⟩ := photFr_ok hep
        exact ⟨e, he, b1, b2, b3⟩
      have hgs' : ∃ gs', darkSubMaps track m ps = .ok gs' := by
        rw [hl] at hpp
        cases hpsl : ps with
        | nil => rw [hpsl] at hpp; cases hpp
        | cons p₀ ps' =>
          rw [hpsl] at hpp
          have hpe' : ∀ p ∈ p₀ :: ps', ∃ e ∈ es, Same e p ∧ p.img.shape = e.img.shape ∧ p.img.layers ≠ [] := by
            rw [← hpsl]; exact hpe
          cases hpp with
          | cons h0 _ =>
            have hs0 : Same e₀ p₀ := (photFr_ok h0).1
            have hd0 : synthDark m p₀ = .ok d := by
              rw [← hd]
              unfold Same at hs0
              rw [hs0]
              rfl
            unfold darkSubMaps
            dsimp only
            rw [if_neg (by
              rw [Bool.not_eq_false, uniform_iff]
              intro p hp
              obtain ⟨e, he, hsame, -⟩ := hpe' p hp
              have := hu e he
              unfold Same at hsame hs0
              rw [hsame, hs0]
              exact this), hd0]
            refine mapM_ok_exists.2 fun p hp => ?_
            obtain ⟨e, he, -, c2, c3⟩ := hpe' p hp
            obtain ⟨a1, a2, a3, a4⟩ := hfit e he
            obtain ⟨i, hi⟩ := (Errs.addError_ok_iff track ⟨d.shape, d.err⟩ "dark_error" p.img).2
              ⟨⟨Or.inl (by show d.shape.length = 2; rw [a2]; exact a1), by show d.shape = _; rw [a2, c2]⟩, c3⟩
            unfold subFrame
            rw [hi]
            exact ⟨_, rfl⟩
      obtain ⟨gs', hgs'⟩ := hgs'
      unfold l2bE
      rw [← hes, hps]
      dsimp only
      rw [hgs']
      dsimp only
      have hk := darkSubMaps_keeps hgs'
      refine (C39_flat_accepts_iff track junk F _ ?_).2 ?_
      · intro f hf
        obtain ⟨g, hg, rfl⟩ := List.mem_map.1 hf
        obtain ⟨p, -, -, q2, -⟩ := forall₂_right hk hg
        exact q2
      · intro f hf
        obtain ⟨g, hg, rfl⟩ := List.mem_map.1 hf
        obtain ⟨p, hp, q1, -, -⟩ := forall₂_right hk hg
        obtain ⟨e, he, -, c2, -⟩ := hpe p hp
        obtain ⟨a1, a2, a3, a4⟩ := hfit e he
        have hsh : (desmearFr rowread g).img.shape = e.img.shape := q1.trans c2
        rw [hsh]
        exact ⟨by rw [a3]; exact a1, a3⟩

/-- **C147.** The photon noise does not change values: with and without it the recipe gives the same, so that C144 holds for
the recipe with photon noise. -/
theorem C147_values {track : Bool} {junkP junk : Ix → ℝ} {k ek rowread : ℝ} {m : Maps} {F : Flat} {fs out out' : List Fr}
    (h : l2b track junk k ek rowread m F fs = .ok out) (h' : l2bE track junkP junk k ek rowread m F fs = .ok out') :
    List.Forall₂ (fun g g' => g'.data = g.data ∧ g'.dq = g.dq ∧ g'.bunit = g.bunit) out out' := by
  unfold l2b at h
  unfold l2bE at h'
  cases hp : ((fs.map (toElectrons k ek)).map emDiv).mapM (photFr track junkP) with
  | error e => rw [hp] at h'; cases h'
  | ok ps =>
    rw [hp] at h'
    dsimp only at h'
    cases hg' : darkSubMaps track m ps with
    | error e => rw [hg'] at h'; cases h'
    | ok gs' =>
      rw [hg'] at h'
      dsimp only at h'
      cases hg : darkSubMaps track m ((fs.map (toElectrons k ek)).map emDiv) with
      | error e => rw [hg] at h; cases h
      | ok gs =>
        rw [hg] at h
        dsimp only at h
        cases ho : flatDiv track junk F (gs.map (desmearFr rowread)) with
        | error e => rw [ho] at h; cases h
        | ok o =>
          rw [ho] at h
          cases h
          have h1 : List.Forall₂ Same ((fs.map (toElectrons k ek)).map emDiv) ps :=
            (mapM_ok_iff.1 hp).imp fun _ _ hh => (photFr_ok hh).1
          have h2 := darkSubMaps_same h1 hg hg'
          have h3 : List.Forall₂ Same (gs.map (desmearFr rowread)) (gs'.map (desmearFr rowread)) := by
            rw [List.forall₂_map_left_iff, List.forall₂_map_right_iff]
            refine h2.imp fun a b hab => ?_
            unfold Same at hab ⊢
            rw [hab]
            rfl
          refine (mapM_same (fun _ _ _ _ h h1 h2 => flatFrame_same h h1 h2) h3 ho h').imp fun a b hab => ?_
          unfold Same at hab
          rw [hab]
          exact ⟨rfl, rfl, rfl⟩

/-- **C147.** `pixel` is the error of that chain. -/
theorem C147_pixel (k ek G t eFpn eDark eCic F eF v e s : ℝ) (hF : F ≠ 0) (hv : 0 ≤ v * k / G) :
    ∃ x, pixel k ek G (sqrt (eFpn ^ 2 / G ^ 2 + t ^ 2 * eDark ^ 2 + eCic ^ 2)) F eF (s * F) v (some e) = some x ∧
      0 ≤ x ∧ x ^ 2 = variance k ek G t eFpn eDark eCic F eF v e s := by
  unfold pixel photNoise
  simp only [Option.bind_eq_bind, Option.bind_some, if_neg (not_lt.2 hv)]
  refine ⟨_, rfl, sqrt_nonneg _, ?_⟩
  rw [sq_sqrt (by positivity), div_pow, sq_sqrt (by positivity), sq_sqrt (by positivity), div_pow, sq_sqrt (by positivity),
    sq_sqrt (by positivity)]
  unfold variance excess
  by_cases hG : 1 < G
  · rw [if_pos hG, if_pos hG, mul_pow (sqrt (v * k / G)), sq_sqrt hv, sq_sqrt (by norm_num : (0 : ℝ) ≤ 2)]
    field_simp
  · rw [if_neg hG, if_neg hG, sq_sqrt hv]
    by_cases h0 : G = 0
    · rw [h0]; field_simp
    · field_simp

/-- **C147 is violated**: the error of a pixel is NaN exactly if its value was negative when the photon noise was added
(bias and gain done, dark not), whatever the dark. -/
theorem C147_violated_nan_iff (k ek G ed F eF w v e : ℝ) :
    pixel k ek G ed F eF w v (some e) = none ↔ v * k / G < 0 := by
  unfold pixel photNoise
  by_cases h : v * k / G < 0
  · simp [h]
  · simp [h]

/-- **C147.** The photon noise is that of the charge in the pixel exactly if there is no fixed pattern: the fixed pattern is
still in the value when the photon noise is computed. -/
theorem C147_photon_iff {d : Detector} (hs : Sound d) (s : ℕ → ℕ → ℝ) (r c : ℕ) :
    excess d.gain * (d.kgain * d.counts s r c / d.gain) = excess d.gain * d.charge s r c ↔ d.fpn r c = 0 := by
  have hk := hs.kgain
  have hG : d.gain ≠ 0 := by have := hs.gain; intro h0; rw [h0] at this; norm_num at this
  have hx : excess d.gain ≠ 0 := by unfold excess; split <;> norm_num
  have e : d.kgain * d.counts s r c / d.gain = d.charge s r c + d.fpn r c / d.gain := by
    unfold Detector.counts
    field_simp
  rw [mul_right_inj' hx, e, add_eq_left, div_eq_zero_iff, or_iff_left hG]

/-- **C147 is violated**: the non-linearity correction changes the values and not the errors. Whatever the tables, the
errors after it are the same. -/
theorem C147_violated_nonlin {track : Bool} {tab tab' : NonLin.Table ℝ} {off offErr : ℝ} {x : Raw} {f f' : Fr}
    (h : l2aE track tab off offErr x = .ok f) (h' : l2aE track tab' off offErr x = .ok f') : f.img = f'.img := by
  unfold l2aE at h h'
  cases hb : prescanBiasSub detectorAreas detectorAreas off offErr .image x.l1 with
  | error e => rw [hb] at h; cases h
  | ok o =>
    rw [hb] at h h'
    dsimp only at h h'
    generalize Errs.addError track _ _ _ = r at h h'
    cases r with
    | error e => cases h
    | ok i =>
      dsimp only at h h'
      split at h
      · cases h
      · split at h'
        · cases h'
        · cases h
          cases h'
          rfl

/-- **C147.** The error after L1 to L2a: that of the frame and that of the bias of its row. -/
theorem C147_l2a {tab : NonLin.Table ℝ} (ht : NonLin.Good tab) (track : Bool) (off offErr : ℝ) {x : Raw}
    (hm : x.l1.arrtype = some "SCI") (hs : x.l1.data.nr = 1200 ∧ x.l1.data.nc = 2200)
    (hq : x.l1.dq.nr = 1200 ∧ x.l1.dq.nc = 2200) (he : ∀ e ∈ x.l1.err, e.nr = 1200 ∧ e.nc = 2200)
    {e₀ : Img (Option ℝ)} {es : List (Img (Option ℝ))} (hl : x.l1.err = e₀ :: es) {G : ℝ} (hG : Sat.Gain (hdr x.fr) G) :
    ∃ f, l2aE track tab off offErr x = .ok f ∧ f.img.shape = [1024, 1024] ∧ f.img.layers ≠ [] ∧
      ∀ r c, r < 1024 → c < 1024 → total f.img [r, c] ^ 2 =
        ((e₀.px (13 + r) (1088 + c)).getD 0) ^ 2 + ((rowErr x.l1 sciPrescan 800 1000 offErr (13 + r)).getD 0) ^ 2 := by
  obtain ⟨o, ho, hb⟩ := C26_sci off offErr x.l1 hm hs hq he
  have hn := NonLin.C32_step tab ht none ⟨hdr x.fr, ravel o.data, ravel o.dq⟩ _ hG
  have herr := hb.err
  rw [hl] at herr
  obtain ⟨e₀', es', h1, -, h2⟩ : ∃ a l, (a.nr = 1024 ∧ a.nc = 1024 ∧ ∀ r c, a.px r c = e₀.px (13 + r) (1088 + c)) ∧
      True ∧ o.err = a :: l := by
    cases hoe : o.err with
    | nil => rw [hoe] at herr; cases herr
    | cons a l =>
      rw [hoe] at herr
      cases herr with
      | cons ha _ => exact ⟨a, l, ha, trivial, rfl⟩
  obtain ⟨s1, s2, s3, s4⟩ := hb.shape
  obtain ⟨i, hi⟩ := (Errs.addError_ok_iff track ⟨[o.newErr.nr, o.newErr.nc], at2 o.newErr⟩ "prescan_bias_sub"
    { x.fr.img with shape := [o.data.nr, o.data.nc], layers := o.err.map at2 }).2
    ⟨⟨Or.inl rfl, by show [o.newErr.nr, o.newErr.nc] = [o.data.nr, o.data.nc]; rw [s1, s2, s3, s4]⟩, by
      show o.err.map at2 ≠ []
      rw [h2]; simp⟩
  obtain ⟨g1, g2, -, g4, -⟩ := Errs.addError_effect hi
  unfold l2aE
  rw [ho]
  dsimp only
  rw [hi]
  dsimp only
  rw [hn]
  refine ⟨_, rfl, ?_, g2, fun r c hr hc => ?_⟩
  · show i.shape = _
    rw [g1]
    show [o.data.nr, o.data.nc] = _
    rw [s1, s2]
  · show total i [r, c] ^ 2 = _
    rw [g4, sq_sqrt (by positivity)]
    unfold total
    dsimp only
    rw [h2]
    show ((e₀'.px r c).getD 0) ^ 2 + ((o.newErr.px r c).getD 0) ^ 2 = _
    rw [h1.2.2 r c, hb.newErr r c hr hc]

/-- **C147 is violated**: desmearing divides the first row by `1 + rowread / exptime` and leaves its error. -/
theorem C147_violated_desmear {rowread : ℝ} (f : Fr) (h : 1 + rowread / f.exptime ≠ 0) (c : ℕ) :
    (desmearFr rowread f).data [0, c] = f.data [0, c] / (1 + rowread / f.exptime) ∧
      ∀ p, total (desmearFr rowread f).img p = total f.img p := by
  refine ⟨?_, fun _ => rfl⟩
  have key : ∀ n, 0 < n → ((Desmear.desmearCol rowread f.exptime ((List.range n).map fun s => f.data [s, c]))[0]?).getD 0
      = f.data [0, c] / (1 + rowread / f.exptime) := by
    intro n hn
    unfold Desmear.desmearCol Desmear.smear
    rw [List.getElem?_map, List.length_map, List.length_range, List.getElem?_range hn]
    simp only [Option.map_some, Option.getD_some, List.getElem?_map, List.getElem?_range hn]
    simp only [zero_add, List.range_one, List.foldl_cons, List.foldl_nil, Nat.cast_zero, List.getElem?_range hn,
      Option.map_some, Option.getD_some, sub_self, zero_sub, zpow_neg_one]
    field_simp
    ring
  unfold desmearFr
  dsimp only
  exact key 1024 (by norm_num)

/-- The error that the first row should have: that of `data / (1 + rowread / exptime)`. It has it exactly if there is no
smearing or no error. -/
theorem C147_desmear_iff {rowread : ℝ} (f : Fr) (h : 0 ≤ rowread / f.exptime) (c : ℕ) :
    total (desmearFr rowread f).img [0, c] = total f.img [0, c] / (1 + rowread / f.exptime) ↔
      rowread / f.exptime = 0 ∨ total f.img [0, c] = 0 := by
  have h1 : 1 + rowread / f.exptime ≠ 0 := by positivity
  rw [(C147_violated_desmear f h1 c).2, eq_div_iff h1]
  constructor
  · intro h2
    by_cases h3 : total f.img [0, c] = 0
    · exact Or.inr h3
    · left
      have : total f.img [0, c] * (rowread / f.exptime) = 0 := by linarith
      exact (mul_eq_zero.1 this).resolve_left h3
  · rintro (h2 | h2)
    · rw [h2]; ring
    · rw [h2]; ring

/-! ## Non-vacuity -/

/-- A pixel one count below the bias: no error; one count above: an error. -/
example : pixel 8 0 100 0 1 0 0 (-1) (some 1) = none := (C147_violated_nan_iff ..).2 (by norm_num)

example : ∃ x, pixel 8 0 100 (sqrt (3 ^ 2 / 100 ^ 2 + 1 ^ 2 * 1 ^ 2 + 2 ^ 2)) 1 0 (5 * 1) 1 (some 1) = some x :=
  (C147_pixel 8 0 100 1 3 1 2 1 0 1 1 5 one_ne_zero (by norm_num)).imp fun _ h => h.1

end Corgi.EndToEnd
