import Verif.Props.BlindRsd
import Verif.Props.Hermitian
import Verif.Spec.Png

/-!
# C49: primordial non-Gaussianity blinding
-/

namespace Verif.Props

open Verif Verif.Model Verif.Model.Blinding Verif.Spec.Blinding Verif.Lemmas.Blinding Verif.Lemmas Mesh

/-- The reconstruction in use. -/
inductive PngUses {M : Mesh} (recon : PngReconArg M) (fid : Cosmo) (z bias : Option ℝ) (sigma : ℝ) (c : Catalogs) (R : PngRecon M) : Prop
  | given (h : recon = .instance R)
  | run (alg : _) (f : ℝ) (h : recon = .name alg) (hf : IsFiducial fid z "f" f) (hR : R = alg c f bias sigma)

theorem PngUses.eval {M : Mesh} {recon : PngReconArg M} {fid : Cosmo} {z bias : Option ℝ} {sigma : ℝ} {c : Catalogs} {R : PngRecon M}
    (h : PngUses recon fid z bias sigma c R) : ∃ fname, pngRecon recon fid z bias sigma c = .ok (fname, R) := by
  cases h with
  | given h => subst h; exact ⟨none, rfl⟩
  | run alg f h hf hR =>
    subst h hR
    have hz : z = none ∨ ¬ IsDensity "f" := Or.inr (by unfold IsDensity; decide)
    exact ⟨some f, by simp only [pngRecon, getFromCosmo_fiducial hf hz]; rfl⟩

theorem getFromCosmo_fnl {c : Cosmo} {fnl : ℝ} (h : IsFnl c fnl) : getFromCosmo c "fnl" none = .ok fnl := by
  have e1 : "omega".toList.isPrefixOf "fnl".toList = false := by decide
  have e2 : "Omega".toList.isPrefixOf "fnl".toList = false := by decide
  unfold getFromCosmo
  rw [e1, e2]
  rcases h with h | ⟨h, rfl⟩
  · rw [h]; rfl
  · rw [h]
    simp only [Bool.false_eq_true, if_false]
    rw [if_neg (by decide), if_neg (by decide), if_neg (by decide), if_pos trivial]

theorem transfer_alpha {s : Spectra} {h k : ℝ} (hh : 0 < h) (hk : 0 < k) (hl : 0 < s.lin k) (hp : 0 < s.prim k) :
    transfer s h k = alpha s h k ∧ 0 < transfer s h k := by
  have hpi := Real.pi_pos
  have e : transfer s h k = alpha s h k := by
    unfold transfer alpha
    rw [show s.lin k / (9 / 25 * 2 * Real.pi ^ 2 / k ^ 3 * s.prim k / h ^ 3) =
      (5 / 3) ^ 2 * (s.lin k / (2 * Real.pi ^ 2 / (k * h) ^ 3 * s.prim k)) by field_simp; norm_num,
      Real.sqrt_mul (by positivity), Real.sqrt_sq (by norm_num)]
  refine ⟨e, ?_⟩
  unfold transfer
  apply Real.sqrt_pos.mpr
  positivity

variable {M : Mesh}

theorem waveLength_pos (hL : ∀ d, 0 < M.boxsize d) {k : M.Idx} (h : k ≠ 0) : 0 < waveLength M k :=
  Real.sqrt_pos.mpr (lt_of_le_of_ne (k2_nonneg M k) fun e => h ((k2_zero_iff M hL k).mp e.symm))

theorem waveLength_zero (hL : ∀ d, 0 < M.boxsize d) : Real.sqrt (M.k2 (0 : M.Idx)) = 0 := by
  rw [(k2_zero_iff M hL 0).mpr rfl, Real.sqrt_zero]

/-- The modes computed by `png`. -/
theorem pngModes_ok (hL : ∀ d, 0 < M.boxsize d) {s : Spectra} {h : ℝ} (hs : PositiveSpectra s h) (b1 fnl : ℝ) (delta : M.Idx → ℝ) :
    pngModes (transfer s h) (bfnl b1 fnl) delta = .ok fun k => if k = 0 then 0 else
      ((2 * 1.686 * (b1 - 1) * fnl / alpha s h (waveLength M k) : ℝ) : ℂ) * M.r2c (fun i => (delta i : ℂ)) k := by
  have hT : ∀ k : M.Idx, k ≠ 0 → transfer s h (Real.sqrt (M.k2 k)) = alpha s h (waveLength M k) ∧
      0 < transfer s h (Real.sqrt (M.k2 k)) := fun k hk =>
    transfer_alpha hs.1 (waveLength_pos hL hk) (hs.2 _ (waveLength_pos hL hk)).1 (hs.2 _ (waveLength_pos hL hk)).2
  unfold pngModes
  rw [if_neg]
  · congr 1
    funext k
    by_cases hk : k = 0
    · subst hk
      rw [if_neg (not_not.mpr (waveLength_zero hL)), if_pos rfl]
    · have hne : Real.sqrt (M.k2 k) ≠ 0 := (waveLength_pos hL hk).ne'
      rw [if_pos hne, if_neg hk, (hT k hk).1, mul_comm]
      rfl
  · rintro ⟨k, h1, h2⟩
    by_cases hk : k = 0
    · subst hk; exact h1 (waveLength_zero hL)
    · exact (hT k hk).2.ne' h2

theorem c2rReal_r2c (g : M.Idx → ℝ) : M.c2rReal (M.r2c fun i => (g i : ℂ)) = g := by
  funext i
  unfold Mesh.c2rReal
  rw [c2r_r2c]
  simp

theorem modes_eq {s : Spectra} {h b1 fnl : ℝ} {delta g : M.Idx → ℝ} (hg : IsPngField M s h b1 fnl delta g) :
    (fun k => if k = 0 then 0 else
      ((2 * 1.686 * (b1 - 1) * fnl / alpha s h (waveLength M k) : ℝ) : ℂ) * M.r2c (fun i => (delta i : ℂ)) k) =
      M.r2c fun i => (g i : ℂ) := funext fun k => (hg k).symm

/-- There is exactly one non-Gaussian field for any contrast. -/
theorem C49_field_exists (s : Spectra) (h b1 fnl : ℝ) (delta : M.Idx → ℝ) : ∃! g : M.Idx → ℝ, IsPngField M s h b1 fnl delta g := by
  have hF : Hermitian M fun k => if k = 0 then 0 else
      ((2 * 1.686 * (b1 - 1) * fnl / alpha s h (waveLength M k) : ℝ) : ℂ) * M.r2c (fun i => (delta i : ℂ)) k := by
    intro k
    have hk2 : waveLength M (-k) = waveLength M k := congrArg Real.sqrt (k2_neg M k)
    by_cases hk : k = 0
    · subst hk; simp
    · simp only [if_neg hk, if_neg (neg_ne_zero.mpr hk), hk2, map_mul, Complex.conj_ofReal]
      rw [hermitian_r2c M delta k]
  refine ⟨M.c2rReal fun k => if k = 0 then 0 else
      ((2 * 1.686 * (b1 - 1) * fnl / alpha s h (waveLength M k) : ℝ) : ℂ) * M.r2c (fun i => (delta i : ℂ)) k, ?_, ?_⟩
  · intro k
    have hre : (fun i => ((M.c2rReal (fun k => if k = 0 then 0 else
        ((2 * 1.686 * (b1 - 1) * fnl / alpha s h (waveLength M k) : ℝ) : ℂ) * M.r2c (fun i => (delta i : ℂ)) k) i : ℝ) : ℂ)) =
        M.c2r fun k => if k = 0 then 0 else
        ((2 * 1.686 * (b1 - 1) * fnl / alpha s h (waveLength M k) : ℝ) : ℂ) * M.r2c (fun i => (delta i : ℂ)) k := by
      funext i
      exact Complex.ext rfl ((C43_real_iff M _).mpr hF i).symm
    rw [hre, r2c_c2r]
  · intro g hg
    rw [modes_eq hg, c2rReal_r2c]

/-- Its mean over the mesh is zero. -/
theorem C49_field_mean {s : Spectra} {h b1 fnl : ℝ} {delta g : M.Idx → ℝ} (hg : IsPngField M s h b1 fnl delta g) : ∑ i, g i = 0 := by
  have := hg 0
  rw [if_pos rfl] at this
  unfold Mesh.r2c at this
  have hp := prod_ne M
  rw [div_eq_zero_iff] at this
  have hs := this.resolve_right hp
  have hc : ∀ i : M.Idx, M.char (-i) 0 = 1 := fun i => by rw [char_comm, char_zero_left]
  simp only [hc, mul_one] at hs
  exact_mod_cast hs

/-- With `fnl = 0` or `b1 = 1` it is zero. -/
theorem isPngField_zero {s : Spectra} {h b1 fnl : ℝ} (h0 : fnl = 0 ∨ b1 = 1) (delta : M.Idx → ℝ) :
    IsPngField M s h b1 fnl delta fun _ => 0 := by
  intro k
  have : (2 * 1.686 * (b1 - 1) * fnl : ℝ) = 0 := by rcases h0 with rfl | rfl <;> ring
  rw [this]
  simp [Mesh.r2c]

theorem mapM_id_some {α : Type*} (l : List α) : (l.map some).mapM id = some l := by
  induction l with
  | nil => rfl
  | cons a l ih => rw [List.map_cons, List.mapM_cons, ih]; rfl

/-- One rank of weights. -/
theorem weights_rank (R : PngRecon M) (g : M.Idx → ℝ) (sign : ℝ) (rows : List (V3 ℝ)) (w : Option (List ℝ))
    (hw : ∀ l, w = some l → l.length = rows.length) :
    (do let shift ← rows.mapM fun p => do .ok ((← (Except.ok 1 : Except Err ℝ)) * R.readout g p)
        multiplyWeights sign w shift) =
      .ok (List.zipWith (fun r w => w * (1 + sign * R.readout g r)) rows (weightsOr1 rows.length w)) := by
  have : rows.mapM (fun p => do Except.ok ((← (Except.ok 1 : Except Err ℝ)) * R.readout g p)) =
      .ok (rows.map fun p => 1 * R.readout g p) := mapM_ok _ _ _ fun _ _ => rfl
  rw [this]
  simp only [Bind.bind, Except.bind, one_mul]
  cases w with
  | none =>
    simp only [multiplyWeights, weightsOr1, Option.getD_none, Except.ok.injEq]
    clear this hw
    induction rows with
    | nil => rfl
    | cons a rows ih => simpa [List.replicate_succ] using ih
  | some l =>
    have hl := hw l rfl
    simp only [multiplyWeights, weightsOr1, Option.getD_some, List.length_map, hl, if_true, Except.ok.injEq]
    rw [List.zipWith_map_right]
    exact List.zipWith_comm (f := fun w s => w * (1 + sign * R.readout g s)) (as := l) (bs := rows)

/-- The catalogs that the reconstruction gets. -/
noncomputable def catalogsOf (ptype : String) (dist : ℝ → ℝ) (data : List (List (V3 ℝ))) (dw : List (Option (List ℝ)))
    (randoms : List (Option (List (V3 ℝ)))) (rw : List (Option (List ℝ))) : Catalogs :=
  ⟨data.map (List.map (cart ptype dist)), dw, randoms.map (Option.map (List.map (cart ptype dist))), rw⟩

/-- Density contrast of the reconstruction, from data moved back to real space. -/
noncomputable def contrastOf (R : PngRecon M) (c : Catalogs) (sigma : ℝ) : M.Idx → ℝ :=
  R.contrast { c with data := c.data.map fun rows => rows.map fun p => p - R.shifts p } sigma

/-- Formatting, when rows are on all ranks. -/
theorem png_scattered {method ptype : String} (hm : method ∈ ["data_weights", "randoms_weights", "data_positions", "randoms_positions"])
    (h : Known ptype) (dist : ℝ → ℝ) (s : Spectra) (blind fid : Cosmo) (z bias : Option ℝ) (recon : PngReconArg M) (sigma : ℝ)
    (correct : Bool) (data : List (List (V3 ℝ))) (dw : List (Option (List ℝ))) (randoms : List (Option (List (V3 ℝ))))
    (rw : List (Option (List ℝ))) (h1 : Consistent dw) (h2 : Consistent rw) :
    png method ptype none dist s blind fid z bias none recon sigma correct (data.map (argOf ptype)) dw (randoms.map (argOf? ptype)) rw =
      pngOutput none data.length (do
        let (fname, r) ← pngRecon recon fid z bias sigma (catalogsOf ptype dist data dw randoms rw)
        pngCore method s blind fid sigma correct fname r (catalogsOf ptype dist data dw randoms rw)) := by
  unfold png
  rw [if_neg (not_not.mpr hm), formatPositions_scattered h, List.map_map,
    show (Res.locally Formatted.get ∘ fun rows : List (V3 ℝ) => .done (.rows (rows.map (cart ptype dist)))) =
      fun rows => .done (rows.map (cart ptype dist)) from rfl, collective_done, formatWeights_consistent h1, collective_done',
    formatPositions_optional h, collective_done, formatWeights_consistent h2, collective_done']
  simp only [List.length_map, List.map_map]
  refine congrArg (fun r => pngOutput none data.length (do
    let (fname, x) ← pngRecon recon fid z bias sigma ⟨data.map (List.map (cart ptype dist)), dw, r, rw⟩
    pngCore method s blind fid sigma correct fname x ⟨data.map (List.map (cart ptype dist)), dw, r, rw⟩))
    (List.map_congr_left fun o _ => ?_ : _ = randoms.map (Option.map (List.map (cart ptype dist))))
  cases o <;> rfl

theorem pngCore_weights (hL : ∀ d, 0 < M.boxsize d) {method : String} (hm : onWeights method = true) {s : Spectra} {blind fid : Cosmo}
    (hs : PositiveSpectra s fid.h) {fnl : ℝ} (hfnl : IsFnl blind fnl) (sigma : ℝ) (fname : Option ℝ) (R : PngRecon M) (c : Catalogs)
    (g : M.Idx → ℝ) (hg : IsPngField M s fid.h R.bias fnl (contrastOf R c sigma) g) (positions : List (List (V3 ℝ)))
    (hp : pngPositions method c = .ok positions)
    (hw : ∀ x ∈ positions.zip (if onData method then c.dataWeights else c.randomsWeights), ∀ l, x.2 = some l → l.length = x.1.length) :
    pngCore method s blind fid sigma false fname R c = .ok (.inl (List.zipWith (fun rows w => .ok (List.zipWith
      (fun r w => w * (1 + (if onData method then 1 else -1) * R.readout g r)) rows (weightsOr1 rows.length w))) positions
        (if onData method then c.dataWeights else c.randomsWeights))) := by
  unfold pngCore
  simp only [Bool.and_false, Bool.false_eq_true, if_false]
  rw [getFromCosmo_fnl hfnl]
  simp only [Bind.bind, Except.bind]
  rw [pngModes_ok hL hs, show R.contrast { c with data := c.data.map fun rows => rows.map fun p => p - R.shifts p } sigma =
    contrastOf R c sigma from rfl, modes_eq hg]
  simp only [pngFactor, Bool.false_eq_true, if_false, hp, hm, if_true]
  congr 2
  unfold pngWeights
  rw [c2rReal_r2c]
  generalize (if onData method then c.dataWeights else c.randomsWeights) = ws at hw
  clear hp
  induction positions generalizing ws with
  | nil => rfl
  | cons rows positions ih =>
    cases ws with
    | nil => rfl
    | cons w ws =>
      rw [List.zipWith_cons_cons, List.zipWith_cons_cons, ih ws fun x hx => hw x (by rw [List.zip_cons_cons]; exact List.mem_cons_of_mem _ hx),
        ← weights_rank R g _ rows w fun l hl => hw (rows, w) (by rw [List.zip_cons_cons]; exact List.mem_cons_self) l hl]

theorem pngOutput_weights (n : ℕ) (α β : Type) (f : α → β → List ℝ) (a : List α) (b : List β) :
    pngOutput none n (.ok (.inl (List.zipWith (fun x y => .ok (f x y)) a b))) =
      List.zipWith (fun x y => .done (.weights (some (f x y)))) a b := by
  simp only [pngOutput, List.map_map]
  induction a generalizing b with
  | nil => rfl
  | cons x a ih =>
    cases b with
    | nil => rfl
    | cons y b =>
      rw [List.zipWith_cons_cons, List.map_cons, ih, List.zipWith_cons_cons]
      rfl

/-- Weighting data: each weight (1 if not given) is multiplied by 1 plus the non-Gaussian field at the object. For all position types,
reconstructions, catalogs; without shot noise correction, rows on all ranks. Missing for the full claim: with shot noise correction,
`fnl = 0` does not leave weights unchanged, see `C49_shotnoise_zero_violated`, `C49_shotnoise_instance_violated`. -/
theorem C49_data_weights_partial (hL : ∀ d, 0 < M.boxsize d) {ptype : String} (h : Known ptype) (dist : ℝ → ℝ) {s : Spectra}
    {blind fid : Cosmo} (hs : PositiveSpectra s fid.h) {fnl : ℝ} (hfnl : IsFnl blind fnl) (z bias : Option ℝ) (recon : PngReconArg M)
    (sigma : ℝ) (data : List (List (V3 ℝ))) (dw : List (Option (List ℝ))) (randoms : List (Option (List (V3 ℝ))))
    (rw : List (Option (List ℝ))) (h1 : Consistent dw) (h2 : Consistent rw)
    (hw : ∀ x ∈ data.zip dw, ∀ l, x.2 = some l → l.length = x.1.length) (R : PngRecon M)
    (hR : PngUses recon fid z bias sigma (catalogsOf ptype dist data dw randoms rw) R) (g : M.Idx → ℝ)
    (hg : IsPngField M s fid.h R.bias fnl (contrastOf R (catalogsOf ptype dist data dw randoms rw) sigma) g) :
    png "data_weights" ptype none dist s blind fid z bias none recon sigma false (data.map (argOf ptype)) dw
        (randoms.map (argOf? ptype)) rw =
      List.zipWith (fun rows w => .done (.weights (some (List.zipWith (fun r w => w * (1 + R.readout g (cart ptype dist r))) rows
        (weightsOr1 rows.length w))))) data dw := by
  obtain ⟨fname, hf⟩ := hR.eval
  rw [png_scattered (by simp) h dist s blind fid z bias recon sigma false data dw randoms rw h1 h2, hf]
  simp only [Bind.bind, Except.bind]
  have hd : onData "data_weights" = true := by decide
  rw [pngCore_weights hL (by decide) hs hfnl sigma fname R _ g hg (data.map (List.map (cart ptype dist))) (by
      unfold pngPositions; rw [if_pos hd]; rfl) (by
      rw [if_pos hd]
      intro x hx l hl
      rw [show (catalogsOf ptype dist data dw randoms rw).dataWeights = dw from rfl, List.zip_map_left] at hx
      obtain ⟨y, hy, rfl⟩ := List.mem_map.mp hx
      have := hw y hy l hl
      simpa using this)]
  rw [pngOutput_weights, if_pos hd, show (catalogsOf ptype dist data dw randoms rw).dataWeights = dw from rfl, List.zipWith_map_left]
  simp only [hd, if_true, one_mul, List.length_map, List.zipWith_map_left]

/-- Weighting randoms: each weight is multiplied by 1 minus the non-Gaussian field. -/
theorem C49_randoms_weights_partial (hL : ∀ d, 0 < M.boxsize d) {ptype : String} (h : Known ptype) (dist : ℝ → ℝ) {s : Spectra}
    {blind fid : Cosmo} (hs : PositiveSpectra s fid.h) {fnl : ℝ} (hfnl : IsFnl blind fnl) (z bias : Option ℝ) (recon : PngReconArg M)
    (sigma : ℝ) (data : List (List (V3 ℝ))) (dw : List (Option (List ℝ))) (randoms : List (List (V3 ℝ)))
    (rw : List (Option (List ℝ))) (h1 : Consistent dw) (h2 : Consistent rw)
    (hw : ∀ x ∈ randoms.zip rw, ∀ l, x.2 = some l → l.length = x.1.length) (R : PngRecon M)
    (hR : PngUses recon fid z bias sigma (catalogsOf ptype dist data dw (randoms.map some) rw) R) (g : M.Idx → ℝ)
    (hg : IsPngField M s fid.h R.bias fnl (contrastOf R (catalogsOf ptype dist data dw (randoms.map some) rw) sigma) g) :
    png "randoms_weights" ptype none dist s blind fid z bias none recon sigma false (data.map (argOf ptype)) dw
        (randoms.map (argOf ptype)) rw =
      List.zipWith (fun rows w => .done (.weights (some (List.zipWith (fun r w => w * (1 - R.readout g (cart ptype dist r))) rows
        (weightsOr1 rows.length w))))) randoms rw := by
  obtain ⟨fname, hf⟩ := hR.eval
  have := png_scattered (method := "randoms_weights") (by simp) h dist s blind fid z bias recon sigma false data dw (randoms.map some)
    rw h1 h2
  rw [List.map_map, show argOf? ptype ∘ some = argOf ptype from rfl] at this
  rw [this, hf]
  simp only [Bind.bind, Except.bind]
  have hd : onData "randoms_weights" = false := by decide
  have hr : (catalogsOf ptype dist data dw (randoms.map some) rw).randoms = (randoms.map (List.map (cart ptype dist))).map some := by
    simp [catalogsOf]
  rw [pngCore_weights hL (by decide) hs hfnl sigma fname R _ g hg (randoms.map (List.map (cart ptype dist))) (by
      unfold pngPositions; rw [hd, hr, mapM_id_some]; rfl) (by
      rw [hd]
      intro x hx l hl
      simp only [Bool.false_eq_true, if_false] at hx
      rw [show (catalogsOf ptype dist data dw (randoms.map some) rw).randomsWeights = rw from rfl, List.zip_map_left] at hx
      obtain ⟨y, hy, rfl⟩ := List.mem_map.mp hx
      have := hw y hy l hl
      simpa using this)]
  rw [pngOutput_weights, hd]
  simp only [Bool.false_eq_true, if_false]
  rw [show (catalogsOf ptype dist data dw (randoms.map some) rw).randomsWeights = rw from rfl, List.zipWith_map_left]
  simp only [List.length_map, List.zipWith_map_left, neg_mul, one_mul, ← sub_eq_add_neg]

theorem zipWith_ones (rows : List (V3 ℝ)) (w : Option (List ℝ)) (hw : ∀ l, w = some l → l.length = rows.length) :
    List.zipWith (fun (_ : V3 ℝ) (w : ℝ) => w) rows (weightsOr1 rows.length w) = weightsOr1 rows.length w := by
  have hl : (weightsOr1 rows.length w).length = rows.length := by
    cases w with
    | none => simp [weightsOr1]
    | some l => exact hw l rfl
  generalize weightsOr1 rows.length w = l at hl
  induction rows generalizing l w with
  | nil => rw [List.length_eq_zero_iff.mp hl]; rfl
  | cons a rows ih =>
    cases l with
    | nil => simp at hl
    | cons b l => rw [List.zipWith_cons_cons, ih none (by simp) l (by simpa using hl)]

/-- Weights are left unchanged when the blinded `fnl` is zero (or the bias is one), without shot noise correction. -/
theorem C49_identity_partial (hL : ∀ d, 0 < M.boxsize d) {ptype : String} (h : Known ptype) (dist : ℝ → ℝ) {s : Spectra}
    {blind fid : Cosmo} (hs : PositiveSpectra s fid.h) {fnl : ℝ} (hfnl : IsFnl blind fnl) (z bias : Option ℝ) (recon : PngReconArg M)
    (sigma : ℝ) (data : List (List (V3 ℝ))) (dw : List (Option (List ℝ))) (randoms : List (List (V3 ℝ)))
    (rw : List (Option (List ℝ))) (h1 : Consistent dw) (h2 : Consistent rw)
    (hw : ∀ x ∈ data.zip dw, ∀ l, x.2 = some l → l.length = x.1.length)
    (hw' : ∀ x ∈ randoms.zip rw, ∀ l, x.2 = some l → l.length = x.1.length) (R : PngRecon M)
    (hR : PngUses recon fid z bias sigma (catalogsOf ptype dist data dw (randoms.map some) rw) R)
    (hread : ∀ p, R.readout (fun _ => 0) p = 0) (h0 : fnl = 0 ∨ R.bias = 1) :
    png "data_weights" ptype none dist s blind fid z bias none recon sigma false (data.map (argOf ptype)) dw
        (randoms.map (argOf ptype)) rw =
      List.zipWith (fun rows w => .done (.weights (some (weightsOr1 rows.length w)))) data dw ∧
    png "randoms_weights" ptype none dist s blind fid z bias none recon sigma false (data.map (argOf ptype)) dw
        (randoms.map (argOf ptype)) rw =
      List.zipWith (fun rows w => .done (.weights (some (weightsOr1 rows.length w)))) randoms rw := by
  have key : ∀ (l : List (List (V3 ℝ))) (w : List (Option (List ℝ))), (∀ x ∈ l.zip w, ∀ v, x.2 = some v → v.length = x.1.length) →
      List.zipWith (fun rows w => (.done (.weights (some (List.zipWith (fun (_ : V3 ℝ) (w : ℝ) => w) rows
        (weightsOr1 rows.length w)))) : Res PngOut)) l w =
      List.zipWith (fun rows w => .done (.weights (some (weightsOr1 rows.length w)))) l w := by
    intro l
    induction l with
    | nil => intro w _; rfl
    | cons a l ih =>
      intro w hx
      cases w with
      | nil => rfl
      | cons b w =>
        rw [List.zipWith_cons_cons, List.zipWith_cons_cons, ih w fun x hx' => hx x (by rw [List.zip_cons_cons]; exact List.mem_cons_of_mem _ hx'),
          zipWith_ones a b fun v hv => hx (a, b) (by rw [List.zip_cons_cons]; exact List.mem_cons_self) v hv]
  constructor
  · have := C49_data_weights_partial hL h dist hs hfnl z bias recon sigma data dw (randoms.map some) rw h1 h2 hw R hR (fun _ => 0)
      (isPngField_zero h0 _)
    rw [List.map_map, show argOf? ptype ∘ some = argOf ptype from rfl] at this
    rw [this]
    simp only [hread, add_zero, mul_one]
    exact key data dw hw
  · rw [C49_randoms_weights_partial hL h dist hs hfnl z bias recon sigma data dw randoms rw h1 h2 hw' R hR (fun _ => 0)
      (isPngField_zero h0 _)]
    simp only [hread, sub_zero, mul_one]
    exact key randoms rw hw'

/-! ### Rows on one rank -/

/-- Rows shared among ranks. -/
def shared {α : Type} (N : ℕ) (l : List α) : List (List α) := splitSizes (localSizes l.length N) l

/-- Weights shared among ranks. -/
def sharedWeights (N : ℕ) : Option (List ℝ) → List (Option (List ℝ))
  | none => List.replicate N none
  | some l => (shared N l).map some

/-- The catalogs that the reconstruction gets, when rows are on one rank. -/
noncomputable def catalogsOfRoot (ptype : String) (dist : ℝ → ℝ) (N : ℕ) (data : List (V3 ℝ)) (dw : Option (List ℝ))
    (randoms : Option (List (V3 ℝ))) (rw : Option (List ℝ)) : Catalogs :=
  ⟨shared N (data.map (cart ptype dist)), sharedWeights N dw,
    match randoms with
    | none => List.replicate N none
    | some r => (shared N (r.map (cart ptype dist))).map some,
    sharedWeights N rw⟩

theorem formatWeights_root (w : List (Option (List ℝ))) (root : ℕ) (x : Option (List ℝ)) (h : w[root]? = some x) :
    formatWeights (some root) w = (sharedWeights w.length x).map .done := by
  cases x with
  | none => simp [formatWeights, h, sharedWeights]
  | some l => simp [formatWeights, h, sharedWeights, shared]

theorem formatPositions_root_none (ptype : String) (dist : ℝ → ℝ) (args : List Positions) (root : ℕ)
    (h : args[root]? = some .none) : formatPositions ptype none dist (some root) args = args.map fun p => .done (.raw p) := by
  unfold formatPositions
  have h1 : (List.mapIdx (fun rank p => Res.locally (formatRank ptype none dist (some root) rank) (.done p)) args) =
      ((args.map Formatted.raw).map Except.ok).map Res.done := by
    apply List.ext_getElem (by simp)
    intro i h1 h2
    simp only [List.getElem_mapIdx, List.getElem_map, Res.locally, formatRank]
    rw [if_neg]
    rintro ⟨hi, hg⟩
    have hi : i = root := by rcases hi with hi | hi <;> simp_all
    subst hi
    obtain ⟨hlt, hx⟩ := List.getElem?_eq_some_iff.mp h
    rw [hx] at hg
    simp [Positions.given] at hg
  rw [h1, collective_done', firstMsg_ok, oks_ok]
  simp [scatterFormatted, h, Function.comp_def]

theorem png_root {method ptype : String} (hm : method ∈ ["data_weights", "randoms_weights", "data_positions", "randoms_positions"])
    (h : Known ptype) (dist : ℝ → ℝ) (s : Spectra) (blind fid : Cosmo) (z bias : Option ℝ) (recon : PngReconArg M) (sigma : ℝ)
    (correct : Bool) (root : ℕ) (data : List Positions) (dw : List (Option (List ℝ))) (randoms : List Positions)
    (rw : List (Option (List ℝ))) (rows : List (V3 ℝ)) (w : Option (List ℝ)) (rrows : Option (List (V3 ℝ))) (rw0 : Option (List ℝ))
    (e1 : dw.length = data.length) (e2 : randoms.length = data.length) (e3 : rw.length = data.length)
    (h1 : data[root]? = some (argOf ptype rows)) (h2 : dw[root]? = some w) (h3 : randoms[root]? = some (argOf? ptype rrows))
    (h4 : rw[root]? = some rw0) :
    png method ptype none dist s blind fid z bias (some root) recon sigma correct data dw randoms rw =
      pngOutput (some root) data.length (do
        let (fname, r) ← pngRecon recon fid z bias sigma (catalogsOfRoot ptype dist data.length rows w rrows rw0)
        pngCore method s blind fid sigma correct fname r (catalogsOfRoot ptype dist data.length rows w rrows rw0)) := by
  unfold png
  have hget : ((splitSizes (localSizes rows.length data.length) (rows.map (cart ptype dist))).map fun b =>
      (.done (.rows b) : Res Formatted)).map (Res.locally Formatted.get) =
      (shared data.length (rows.map (cart ptype dist))).map Res.done := by
    rw [List.map_map, shared, List.length_map]
    rfl
  rw [if_neg (not_not.mpr hm), formatPositions_root h dist data root rows h1, hget, collective_done', formatWeights_root dw root w h2,
    collective_done', formatWeights_root rw root rw0 h4, e1, e3]
  cases rrows with
  | none =>
    rw [formatPositions_root_none ptype dist randoms root h3, collective_done, collective_done']
    have : (randoms.map fun p => Formatted.raw p).map Formatted.rows? = List.replicate data.length none := by
      rw [List.map_map, ← e2]
      exact List.eq_replicate_iff.mpr ⟨by simp, by simp [Formatted.rows?]⟩
    simp only [this]
    rfl
  | some r =>
    rw [formatPositions_root h dist randoms root r h3, collective_done, collective_done', e2]
    have : ((splitSizes (localSizes r.length data.length) (r.map (cart ptype dist))).map fun b => Formatted.rows b).map
        Formatted.rows? = (shared data.length (r.map (cart ptype dist))).map some := by
      rw [List.map_map, shared, List.length_map]
      rfl
    simp only [this]
    rfl

theorem flatten_zipWith_split {α β γ : Type*} (f : α → β → γ) (sizes : List ℕ) (a : List α) (b : List β) (ha : sizes.sum = a.length)
    (hb : a.length = b.length) :
    (List.zipWith (List.zipWith f) (splitSizes sizes a) (splitSizes sizes b)).flatten = List.zipWith f a b := by
  induction sizes generalizing a b with
  | nil =>
    have : a = [] := List.length_eq_zero_iff.mp (by simpa using ha.symm)
    subst this
    rfl
  | cons n sizes ih =>
    rw [List.sum_cons] at ha
    rw [splitSizes, splitSizes, List.zipWith_cons_cons, List.flatten_cons,
      ih (a.drop n) (b.drop n) (by rw [List.length_drop]; omega) (by rw [List.length_drop, List.length_drop, hb]),
      ← List.take_zipWith, ← List.drop_zipWith, List.take_append_drop]

theorem zipWith_ones_split {α β : Type*} (g : List α → List ℝ → β) (sizes : List ℕ) (a : List α) (ha : sizes.sum = a.length) :
    List.zipWith (fun rows w => g rows (weightsOr1 rows.length w)) (splitSizes sizes a) (List.replicate sizes.length none) =
      List.zipWith g (splitSizes sizes a) (splitSizes sizes (List.replicate a.length 1)) := by
  induction sizes generalizing a with
  | nil => rfl
  | cons n sizes ih =>
    rw [List.sum_cons] at ha
    rw [splitSizes, splitSizes, List.length_cons, List.replicate_succ, List.zipWith_cons_cons, List.zipWith_cons_cons,
      ih (a.drop n) (by rw [List.length_drop]; omega)]
    simp [weightsOr1]

/-- Ranks together. -/
theorem flatten_weights (f : V3 ℝ → ℝ → ℝ) (N : ℕ) (hN : 0 < N) (rows : List (V3 ℝ)) (w : Option (List ℝ))
    (hw : ∀ l, w = some l → l.length = rows.length) :
    (List.zipWith (fun rows w => List.zipWith f rows (weightsOr1 rows.length w)) (shared N rows) (sharedWeights N w)).flatten =
      List.zipWith f rows (weightsOr1 rows.length w) := by
  have hs := sum_localSizes rows.length N hN
  cases w with
  | none =>
    have := zipWith_ones_split (List.zipWith f) _ rows hs
    rw [length_localSizes] at this
    rw [shared, sharedWeights, this, flatten_zipWith_split f _ _ _ hs (by simp)]
    rfl
  | some l =>
    have hl := hw l rfl
    rw [shared, sharedWeights, shared, hl, List.zipWith_map_right]
    exact flatten_zipWith_split f _ _ _ hs hl.symm

/-- What ranks get when rank `root` gets `w`. -/
def weightsOnRoot (N root : ℕ) (w : List ℝ) : List (Res PngOut) :=
  (List.range N).map fun i => .done (.weights (if i = root then some w else none))

theorem length_sharedWeights (N : ℕ) (w : Option (List ℝ)) : (sharedWeights N w).length = N := by
  cases w with
  | none => simp [sharedWeights]
  | some l => simp [sharedWeights, shared, length_splitSizes, length_localSizes]

theorem pngOutput_root (n N root : ℕ) (hN : 0 < N) (f : V3 ℝ → ℝ → ℝ) (rows : List (V3 ℝ)) (w : Option (List ℝ))
    (hw : ∀ l, w = some l → l.length = rows.length) :
    pngOutput (some root) n (.ok (.inl (List.zipWith (fun rows w => .ok (List.zipWith f rows (weightsOr1 rows.length w)))
      (shared N rows) (sharedWeights N w)))) = weightsOnRoot N root (List.zipWith f rows (weightsOr1 rows.length w)) := by
  have e : (List.zipWith (fun rows w => (.ok (List.zipWith f rows (weightsOr1 rows.length w)) : Except Err (List ℝ)))
      (shared N rows) (sharedWeights N w)) =
      (List.zipWith (fun rows w => List.zipWith f rows (weightsOr1 rows.length w)) (shared N rows) (sharedWeights N w)).map .ok := by
    rw [List.map_zipWith]
  rw [e]
  simp only [pngOutput, List.map_map]
  have e2 : ∀ l : List (List ℝ), l.map ((fun x : Except Err (List ℝ) => (match x with
      | .ok l => .done l
      | .error e => .raised e : Res (List ℝ))) ∘ Except.ok) = l.map Res.done := fun _ => rfl
  refine (congrArg (fun x => collective x _) (e2 _)).trans ?_
  rw [collective_done']
  unfold formatOutputWeights gather weightsOnRoot
  have hlen : (List.zipWith (fun rows w => List.zipWith f rows (weightsOr1 rows.length w)) (shared N rows)
      (sharedWeights N w)).length = N := by
    rw [List.length_zipWith, length_sharedWeights, shared, length_splitSizes, length_localSizes, min_self]
  simp only [hlen, flatten_weights f N hN rows w hw, List.map_map]
  rfl

theorem mem_zip_shared {N : ℕ} (hN : 0 < N) {rows : List (V3 ℝ)} {w : Option (List ℝ)} (hw : ∀ l, w = some l → l.length = rows.length) :
    ∀ x ∈ (shared N rows).zip (sharedWeights N w), ∀ l, x.2 = some l → l.length = x.1.length := by
  intro x hx l hl
  cases w with
  | none =>
    have := (List.of_mem_zip (show (x.1, x.2) ∈ _ from hx)).2
    rw [sharedWeights, List.mem_replicate] at this
    rw [this.2] at hl
    simp at hl
  | some v =>
    have hv := hw v rfl
    have hs := sum_localSizes rows.length N hN
    rw [sharedWeights, List.zip_map_right] at hx
    obtain ⟨y, hy, rfl⟩ := List.mem_map.mp hx
    obtain ⟨i, hi, rfl⟩ := List.mem_iff_getElem.mp hy
    simp only [List.getElem_zip, Prod.map, id, Option.some.injEq] at hl ⊢
    have a := lengths_splitSizes (localSizes rows.length N) rows hs
    have b := lengths_splitSizes (localSizes v.length N) v (sum_localSizes v.length N hN)
    rw [hv] at b
    have := congrArg (fun l => l[i]?) (a.trans b.symm)
    simp only [List.getElem?_map] at this
    have hi1 : i < (splitSizes (localSizes rows.length N) rows).length := by
      simp only [List.length_zip] at hi; exact lt_of_lt_of_le hi (min_le_left _ _)
    have hi2 : i < (splitSizes (localSizes v.length N) v).length := by
      simp only [List.length_zip] at hi; exact lt_of_lt_of_le hi (min_le_right _ _)
    rw [hv] at hi2
    rw [List.getElem?_eq_getElem hi1, List.getElem?_eq_getElem hi2] at this
    simp only [Option.map_some, Option.some.injEq] at this
    rw [← hl]
    simp only [shared, hv]
    exact this.symm

/-- Weighting data, rows on one rank. -/
theorem C49_data_weights_root_partial (hL : ∀ d, 0 < M.boxsize d) {ptype : String} (h : Known ptype) (dist : ℝ → ℝ) {s : Spectra}
    {blind fid : Cosmo} (hs : PositiveSpectra s fid.h) {fnl : ℝ} (hfnl : IsFnl blind fnl) (z bias : Option ℝ) (recon : PngReconArg M)
    (sigma : ℝ) (root : ℕ) (data : List Positions) (dw : List (Option (List ℝ))) (randoms : List Positions)
    (rw : List (Option (List ℝ))) (rows : List (V3 ℝ)) (w : Option (List ℝ)) (rrows : Option (List (V3 ℝ))) (rw0 : Option (List ℝ))
    (e1 : dw.length = data.length) (e2 : randoms.length = data.length) (e3 : rw.length = data.length)
    (h1 : data[root]? = some (argOf ptype rows)) (h2 : dw[root]? = some w) (h3 : randoms[root]? = some (argOf? ptype rrows))
    (h4 : rw[root]? = some rw0) (hw : ∀ l, w = some l → l.length = rows.length) (R : PngRecon M)
    (hR : PngUses recon fid z bias sigma (catalogsOfRoot ptype dist data.length rows w rrows rw0) R) (g : M.Idx → ℝ)
    (hg : IsPngField M s fid.h R.bias fnl (contrastOf R (catalogsOfRoot ptype dist data.length rows w rrows rw0) sigma) g) :
    png "data_weights" ptype none dist s blind fid z bias (some root) recon sigma false data dw randoms rw =
      weightsOnRoot data.length root (List.zipWith (fun r w => w * (1 + R.readout g (cart ptype dist r))) rows
        (weightsOr1 rows.length w)) := by
  have hN : 0 < data.length := by
    obtain ⟨hlt, -⟩ := List.getElem?_eq_some_iff.mp h1
    omega
  have hw' : ∀ l, w = some l → l.length = (rows.map (cart ptype dist)).length := by simpa using hw
  obtain ⟨fname, hf⟩ := hR.eval
  rw [png_root (by simp) h dist s blind fid z bias recon sigma false root data dw randoms rw rows w rrows rw0 e1 e2 e3 h1 h2 h3 h4, hf]
  simp only [Bind.bind, Except.bind]
  have hd : onData "data_weights" = true := by decide
  rw [pngCore_weights hL (by decide) hs hfnl sigma fname R _ g hg (shared data.length (rows.map (cart ptype dist))) (by
      unfold pngPositions; rw [if_pos hd]; rfl) (by rw [if_pos hd]; exact mem_zip_shared hN hw')]
  simp only [hd, if_true, one_mul]
  rw [show (catalogsOfRoot ptype dist data.length rows w rrows rw0).dataWeights = sharedWeights data.length w from rfl,
    pngOutput_root _ _ _ hN _ _ _ hw']
  simp only [List.length_map, List.zipWith_map_left]

/-- Weighting randoms, rows on one rank. -/
theorem C49_randoms_weights_root_partial (hL : ∀ d, 0 < M.boxsize d) {ptype : String} (h : Known ptype) (dist : ℝ → ℝ) {s : Spectra}
    {blind fid : Cosmo} (hs : PositiveSpectra s fid.h) {fnl : ℝ} (hfnl : IsFnl blind fnl) (z bias : Option ℝ) (recon : PngReconArg M)
    (sigma : ℝ) (root : ℕ) (data : List Positions) (dw : List (Option (List ℝ))) (randoms : List Positions)
    (rw : List (Option (List ℝ))) (rows : List (V3 ℝ)) (w : Option (List ℝ)) (rrows : List (V3 ℝ)) (rw0 : Option (List ℝ))
    (e1 : dw.length = data.length) (e2 : randoms.length = data.length) (e3 : rw.length = data.length)
    (h1 : data[root]? = some (argOf ptype rows)) (h2 : dw[root]? = some w) (h3 : randoms[root]? = some (argOf ptype rrows))
    (h4 : rw[root]? = some rw0) (hw : ∀ l, rw0 = some l → l.length = rrows.length) (R : PngRecon M)
    (hR : PngUses recon fid z bias sigma (catalogsOfRoot ptype dist data.length rows w (some rrows) rw0) R) (g : M.Idx → ℝ)
    (hg : IsPngField M s fid.h R.bias fnl (contrastOf R (catalogsOfRoot ptype dist data.length rows w (some rrows) rw0) sigma) g) :
    png "randoms_weights" ptype none dist s blind fid z bias (some root) recon sigma false data dw randoms rw =
      weightsOnRoot data.length root (List.zipWith (fun r w => w * (1 - R.readout g (cart ptype dist r))) rrows
        (weightsOr1 rrows.length rw0)) := by
  have hN : 0 < data.length := by
    obtain ⟨hlt, -⟩ := List.getElem?_eq_some_iff.mp h1
    omega
  have hw' : ∀ l, rw0 = some l → l.length = (rrows.map (cart ptype dist)).length := by simpa using hw
  obtain ⟨fname, hf⟩ := hR.eval
  rw [png_root (by simp) h dist s blind fid z bias recon sigma false root data dw randoms rw rows w (some rrows) rw0 e1 e2 e3 h1 h2 h3
    h4, hf]
  simp only [Bind.bind, Except.bind]
  have hd : onData "randoms_weights" = false := by decide
  rw [pngCore_weights hL (by decide) hs hfnl sigma fname R _ g hg (shared data.length (rrows.map (cart ptype dist))) (by
      unfold pngPositions
      rw [hd, show (catalogsOfRoot ptype dist data.length rows w (some rrows) rw0).randoms =
        (shared data.length (rrows.map (cart ptype dist))).map some from rfl, mapM_id_some]
      rfl) (by rw [hd]; exact mem_zip_shared hN hw')]
  simp only [hd, Bool.false_eq_true, if_false]
  rw [show (catalogsOfRoot ptype dist data.length rows w (some rrows) rw0).randomsWeights = sharedWeights data.length rw0 from rfl,
    pngOutput_root _ _ _ hN _ _ _ hw']
  simp only [List.length_map, List.zipWith_map_left, neg_mul, one_mul, ← sub_eq_add_neg]

/-! ### Options rejected -/

/-- Unknown methods are rejected on all ranks. -/
theorem C49_unknown_method (method ptype : String)
    (hm : method ∉ ["data_weights", "randoms_weights", "data_positions", "randoms_positions"]) (dtype : Option Kind) (dist : ℝ → ℝ)
    (s : Spectra) (blind fid : Cosmo) (z bias : Option ℝ) (root : Option ℕ) (recon : PngReconArg M) (sigma : ℝ) (correct : Bool)
    (data : List Positions) (dw : List (Option (List ℝ))) (randoms : List Positions) (rw : List (Option (List ℝ))) :
    png method ptype dtype dist s blind fid z bias root recon sigma correct data dw randoms rw =
      data.map fun _ => .raised .valueError := by
  unfold png
  rw [if_pos hm]

/-- Shot noise correction is rejected on all ranks by methods that move objects. -/
theorem C49_positions_shotnoise {method ptype : String} (hm : method = "data_positions" ∨ method = "randoms_positions") (h : Known ptype)
    (dist : ℝ → ℝ) (s : Spectra) (blind fid : Cosmo) (z bias : Option ℝ) (recon : PngReconArg M) (sigma : ℝ)
    (data : List (List (V3 ℝ))) (dw : List (Option (List ℝ))) (randoms : List (Option (List (V3 ℝ)))) (rw : List (Option (List ℝ)))
    (h1 : Consistent dw) (h2 : Consistent rw) (R : PngRecon M)
    (hR : PngUses recon fid z bias sigma (catalogsOf ptype dist data dw randoms rw) R) :
    png method ptype none dist s blind fid z bias none recon sigma true (data.map (argOf ptype)) dw (randoms.map (argOf? ptype)) rw =
      data.map fun _ => .raised .valueError := by
  obtain ⟨fname, hf⟩ := hR.eval
  rw [png_scattered (by rcases hm with rfl | rfl <;> simp) h dist s blind fid z bias recon sigma true data dw randoms rw h1 h2, hf]
  simp only [Bind.bind, Except.bind]
  have hd : onWeights method = false := by rcases hm with rfl | rfl <;> decide
  unfold pngCore
  rw [hd]
  simp [pngOutput]

/-- Shot noise correction with a reconstruction instance always fails, the growth rate being undefined. -/
theorem C49_shotnoise_instance_violated (hL : ∀ d, 0 < M.boxsize d) {ptype : String} (h : Known ptype) (dist : ℝ → ℝ) {s : Spectra}
    {blind fid : Cosmo} (hs : PositiveSpectra s fid.h) {fnl : ℝ} (hfnl : IsFnl blind fnl) (z bias : Option ℝ) (R : PngRecon M)
    (sigma : ℝ) (data : List (List (V3 ℝ))) (dw : List (Option (List ℝ))) (randoms : List (Option (List (V3 ℝ))))
    (rw : List (Option (List ℝ))) (h1 : Consistent dw) (h2 : Consistent rw) :
    png "data_weights" ptype none dist s blind fid z bias none (.instance R) sigma true (data.map (argOf ptype)) dw
        (randoms.map (argOf? ptype)) rw = data.map fun _ => .raised .nameError := by
  rw [png_scattered (by simp) h dist s blind fid z bias (.instance R) sigma true data dw randoms rw h1 h2]
  simp only [pngRecon, Bind.bind, Except.bind]
  unfold pngCore
  rw [show onWeights "data_weights" = true by decide]
  simp only [Bool.not_true, Bool.false_and, Bool.false_eq_true, if_false]
  rw [getFromCosmo_fnl hfnl]
  simp only [Bind.bind, Except.bind]
  rw [pngModes_ok hL hs]
  simp [pngFactor, pngOutput]

theorem nan_ranks (rd : V3 ℝ → ℝ) (sign : ℝ) (l : List (List (V3 ℝ))) (hne : ∀ rows ∈ l, rows ≠ []) (dw : List (Option (List ℝ)))
    (hdw : dw.length = l.length) :
    List.zipWith (fun rows w => do
      let shift ← rows.mapM fun p => do Except.ok ((← (Except.error .nan : Except Err ℝ)) * rd p)
      multiplyWeights sign w shift) l dw = l.map fun _ => .error .nan := by
  induction l generalizing dw with
  | nil => rfl
  | cons rows l ih =>
    cases dw with
    | nil => simp at hdw
    | cons w dw =>
      rw [List.zipWith_cons_cons, ih (fun r hr => hne r (List.mem_cons_of_mem _ hr)) dw (by simpa using hdw), List.map_cons]
      congr 1
      cases rows with
      | nil => exact absurd rfl (hne [] List.mem_cons_self)
      | cons a rows => rfl

/-- The inverse shot noise is defined, or undefined because of a division by zero. -/
theorem invShotnoise_nan (R : PngRecon M) (c : Catalogs) : invShotnoise R c = .error .nan ∨ ∃ inv, invShotnoise R c = .ok inv := by
  unfold invShotnoise meanDensity
  cases c.randoms.mapM id with
  | none => exact Or.inr ⟨_, rfl⟩
  | some r =>
    dsimp only
    split_ifs
    · exact Or.inl rfl
    · exact Or.inr ⟨_, rfl⟩

/-- With shot noise correction, `fnl = 0` gives undefined weights to all objects, not unchanged ones. -/
theorem C49_shotnoise_zero_violated (hL : ∀ d, 0 < M.boxsize d) {ptype : String} (h : Known ptype) (dist : ℝ → ℝ) {s : Spectra}
    {blind fid : Cosmo} (hs : PositiveSpectra s fid.h) (hfnl : IsFnl blind 0) (z bias : Option ℝ)
    (alg : Catalogs → ℝ → Option ℝ → ℝ → PngRecon M) (f : ℝ) (hf : IsFiducial fid z "f" f)
    (sigma : ℝ) (data : List (List (V3 ℝ))) (hne : ∀ rows ∈ data, rows ≠ []) (dw : List (Option (List ℝ)))
    (hdw : dw.length = data.length) (randoms : List (Option (List (V3 ℝ)))) (rw : List (Option (List ℝ))) (h1 : Consistent dw)
    (h2 : Consistent rw) :
    png "data_weights" ptype none dist s blind fid z bias none (.name alg) sigma true (data.map (argOf ptype)) dw
        (randoms.map (argOf? ptype)) rw = data.map fun _ => .raised .nan := by
  rw [png_scattered (by simp) h dist s blind fid z bias (.name alg) sigma true data dw randoms rw h1 h2]
  have hz : z = none ∨ ¬ IsDensity "f" := Or.inr (by unfold IsDensity; decide)
  simp only [pngRecon, getFromCosmo_fiducial hf hz, Bind.bind, Except.bind]
  unfold pngCore
  have hd : onData "data_weights" = true := by decide
  rw [show onWeights "data_weights" = true by decide]
  simp only [Bool.not_true, Bool.false_and, Bool.false_eq_true, if_false]
  rw [getFromCosmo_fnl hfnl]
  simp only [Bind.bind, Except.bind]
  rw [pngModes_ok hL hs]
  simp only [pngFactor, if_true, pngPositions, hd]
  rcases invShotnoise_nan (alg (catalogsOf ptype dist data dw randoms rw) f bias sigma) (catalogsOf ptype dist data dw randoms rw) with
    hinv | ⟨inv, hinv⟩
  · rw [hinv]
    simp only [pngOutput, Bind.bind, Except.bind, List.map_const']
  rw [hinv]
  simp only [Bind.bind, Except.bind]
  rw [show bfnl (alg (catalogsOf ptype dist data dw randoms rw) f bias sigma).bias 0 = 0 by unfold bfnl; ring]
  simp only [pngOutput, pngWeights, hd, if_true]
  rw [show (catalogsOf ptype dist data dw randoms rw).dataWeights = dw from rfl,
    show (catalogsOf ptype dist data dw randoms rw).data = data.map (List.map (cart ptype dist)) from rfl]
  have hnan : ∀ T lin b1 f s1 s2 d inv, shotnoiseFactor T lin 0 b1 f s1 s2 d inv = .error .nan := by
    intro T lin b1 f s1 s2 d inv
    unfold shotnoiseFactor
    simp
  simp only [hnan]
  rw [nan_ranks _ 1 (data.map (List.map (cart ptype dist))) (by simpa using hne) dw (by simpa using hdw)]
  simp only [List.map_map]
  exact List.map_congr_left fun _ _ => rfl

/-! ### Moving objects -/

theorem displacement_modes (hL : ∀ d, 0 < M.boxsize d) {g v : M.Idx → ℝ} {a : Fin 3} (hv : IsDisplacement M g a v)
    (hg0 : M.r2c (fun i => (g i : ℂ)) 0 = 0) :
    (fun k => M.r2c (fun i => (g i : ℂ)) k * pngDispMult a k) = M.r2c fun i => (v i : ℂ) := by
  funext k
  rw [hv k]
  by_cases hk : k = 0
  · subst hk; rw [hg0, if_pos rfl, zero_mul]
  · rw [if_neg hk]
    have hw : waveLength M k ^ 2 = M.k2safe k := by
      have : M.k2 k ≠ 0 := fun e => hk ((k2_zero_iff M hL k).mp e)
      unfold Mesh.k2safe
      rw [if_neg this]
      exact Real.sq_sqrt (k2_nonneg M k)
    rw [hw]
    unfold pngDispMult
    push_cast
    ring

/-- Displacement read at a position. -/
def readVec (R : PngRecon M) (v : Fin 3 → M.Idx → ℝ) (p : V3 ℝ) : V3 ℝ := ⟨R.readout (v 0) p, R.readout (v 1) p, R.readout (v 2) p⟩

/-- `m` is the mean of a list of vectors. -/
def IsMean (m : V3 ℝ) (l : List (V3 ℝ)) : Prop :=
  l.length * m.x = (l.map (·.x)).sum ∧ l.length * m.y = (l.map (·.y)).sum ∧ l.length * m.z = (l.map (·.z)).sum

theorem isMean_meanRows (ranks : List (List (V3 ℝ))) : IsMean (meanRows ranks) ranks.flatten := by
  unfold IsMean meanRows
  generalize ranks.flatten = l
  by_cases hl : l = []
  · subst hl; simp
  · have : (l.length : ℝ) ≠ 0 := by exact_mod_cast (List.length_pos_iff.mpr hl).ne'
    refine ⟨?_, ?_, ?_⟩ <;> simp only [V3.smul_x, V3.smul_y, V3.smul_z] <;> field_simp

theorem pngCore_positions (hL : ∀ d, 0 < M.boxsize d) {method : String} (hm : onWeights method = false) {s : Spectra} {blind fid : Cosmo}
    (hs : PositiveSpectra s fid.h) {fnl : ℝ} (hfnl : IsFnl blind fnl) (sigma : ℝ) (fname : Option ℝ) (R : PngRecon M) (c : Catalogs)
    (g : M.Idx → ℝ) (hg : IsPngField M s fid.h R.bias fnl (contrastOf R c sigma) g) (v : Fin 3 → M.Idx → ℝ)
    (hv : ∀ a, IsDisplacement M g a (v a)) (positions : List (List (V3 ℝ))) (hp : pngPositions method c = .ok positions) :
    ∃ m, IsMean m (positions.flatten.map (readVec R v)) ∧ pngCore method s blind fid sigma false fname R c =
      .ok (.inr (positions.map fun rows => rows.map fun p =>
        if onData method then p + (readVec R v p - m) else p + -(readVec R v p - m))) := by
  have hdisp : pngDisp R (M.r2c fun i => (g i : ℂ)) = readVec R v := by
    funext p
    have h0 : M.r2c (fun i => (g i : ℂ)) 0 = 0 := by rw [hg 0, if_pos rfl]
    unfold pngDisp readVec
    simp only [displacement_modes hL (hv _) h0, c2rReal_r2c]
  refine ⟨meanRows (positions.map fun rows => rows.map (readVec R v)), ?_, ?_⟩
  · have := isMean_meanRows (positions.map fun rows => rows.map (readVec R v))
    rwa [← List.map_flatten] at this
  · unfold pngCore
    simp only [Bool.and_false, Bool.false_eq_true, if_false]
    rw [getFromCosmo_fnl hfnl]
    simp only [Bind.bind, Except.bind]
    rw [pngModes_ok hL hs, show R.contrast { c with data := c.data.map fun rows => rows.map fun p => p - R.shifts p } sigma =
      contrastOf R c sigma from rfl, modes_eq hg]
    simp only [pngFactor, Bool.false_eq_true, if_false, hp, hm]
    unfold pngShifted
    rw [hdisp]

/-- Moving data: each object moves by the displacement field of the non-Gaussian field at the object, minus the mean over all objects.
Rows are returned as Cartesian positions. When such a displacement field exists, see `C49_odd_mesh` and `C49_even_mesh_violated`. -/
theorem C49_data_positions_partial (hL : ∀ d, 0 < M.boxsize d) {ptype : String} (h : Known ptype) (dist : ℝ → ℝ) {s : Spectra}
    {blind fid : Cosmo} (hs : PositiveSpectra s fid.h) {fnl : ℝ} (hfnl : IsFnl blind fnl) (z bias : Option ℝ) (recon : PngReconArg M)
    (sigma : ℝ) (data : List (List (V3 ℝ))) (dw : List (Option (List ℝ))) (randoms : List (Option (List (V3 ℝ))))
    (rw : List (Option (List ℝ))) (h1 : Consistent dw) (h2 : Consistent rw) (R : PngRecon M)
    (hR : PngUses recon fid z bias sigma (catalogsOf ptype dist data dw randoms rw) R) (g : M.Idx → ℝ)
    (hg : IsPngField M s fid.h R.bias fnl (contrastOf R (catalogsOf ptype dist data dw randoms rw) sigma) g)
    (v : Fin 3 → M.Idx → ℝ) (hv : ∀ a, IsDisplacement M g a (v a)) :
    ∃ m, IsMean m (data.flatten.map fun r => readVec R v (cart ptype dist r)) ∧
      png "data_positions" ptype none dist s blind fid z bias none recon sigma false (data.map (argOf ptype)) dw
        (randoms.map (argOf? ptype)) rw =
      data.map fun rows => .done (.positions (some (rows.map fun r =>
        cart ptype dist r + (readVec R v (cart ptype dist r) - m)))) := by
  obtain ⟨fname, hf⟩ := hR.eval
  have hd : onData "data_positions" = true := by decide
  obtain ⟨m, hmean, hcore⟩ := pngCore_positions hL (method := "data_positions") (by decide) hs hfnl sigma fname R _ g hg v hv
    (data.map (List.map (cart ptype dist))) (by unfold pngPositions; rw [if_pos hd]; rfl)
  refine ⟨m, ?_, ?_⟩
  · rwa [← List.map_flatten, List.map_map] at hmean
  · rw [png_scattered (by simp) h dist s blind fid z bias recon sigma false data dw randoms rw h1 h2, hf]
    simp only [Bind.bind, Except.bind]
    rw [hcore]
    simp only [pngOutput, formatOutputWeights, List.map_map, hd, if_true]
    refine List.map_congr_left fun rows _ => ?_
    simp [Function.comp_def]

/-- Moving randoms: the opposite. -/
theorem C49_randoms_positions_partial (hL : ∀ d, 0 < M.boxsize d) {ptype : String} (h : Known ptype) (dist : ℝ → ℝ) {s : Spectra}
    {blind fid : Cosmo} (hs : PositiveSpectra s fid.h) {fnl : ℝ} (hfnl : IsFnl blind fnl) (z bias : Option ℝ) (recon : PngReconArg M)
    (sigma : ℝ) (data : List (List (V3 ℝ))) (dw : List (Option (List ℝ))) (randoms : List (List (V3 ℝ)))
    (rw : List (Option (List ℝ))) (h1 : Consistent dw) (h2 : Consistent rw) (R : PngRecon M)
    (hR : PngUses recon fid z bias sigma (catalogsOf ptype dist data dw (randoms.map some) rw) R) (g : M.Idx → ℝ)
    (hg : IsPngField M s fid.h R.bias fnl (contrastOf R (catalogsOf ptype dist data dw (randoms.map some) rw) sigma) g)
    (v : Fin 3 → M.Idx → ℝ) (hv : ∀ a, IsDisplacement M g a (v a)) :
    ∃ m, IsMean m (randoms.flatten.map fun r => readVec R v (cart ptype dist r)) ∧
      png "randoms_positions" ptype none dist s blind fid z bias none recon sigma false (data.map (argOf ptype)) dw
        (randoms.map (argOf ptype)) rw =
      randoms.map fun rows => .done (.positions (some (rows.map fun r =>
        cart ptype dist r - (readVec R v (cart ptype dist r) - m)))) := by
  obtain ⟨fname, hf⟩ := hR.eval
  have hd : onData "randoms_positions" = false := by decide
  have hr : (catalogsOf ptype dist data dw (randoms.map some) rw).randoms = (randoms.map (List.map (cart ptype dist))).map some := by
    simp [catalogsOf]
  obtain ⟨m, hmean, hcore⟩ := pngCore_positions hL (method := "randoms_positions") (by decide) hs hfnl sigma fname R _ g hg v hv
    (randoms.map (List.map (cart ptype dist))) (by unfold pngPositions; rw [hd, hr, mapM_id_some]; rfl)
  refine ⟨m, ?_, ?_⟩
  · rwa [← List.map_flatten, List.map_map] at hmean
  · have := png_scattered (method := "randoms_positions") (by simp) h dist s blind fid z bias recon sigma false data dw
      (randoms.map some) rw h1 h2
    rw [List.map_map, show argOf? ptype ∘ some = argOf ptype from rfl] at this
    rw [this, hf]
    simp only [Bind.bind, Except.bind]
    rw [hcore]
    simp only [pngOutput, formatOutputWeights, List.map_map, hd, Bool.false_eq_true, if_false]
    refine List.map_congr_left fun rows _ => ?_
    simp only [Function.comp_def, List.map_map]
    congr 3

/-- With `fnl = 0` objects do not move; yet positions are not returned as the input type, but always as Cartesian ones: for sky
coordinates the output is not the input. -/
theorem C49_positions_type_violated (hL : ∀ d, 0 < M.boxsize d) {s : Spectra} {blind fid : Cosmo} (hs : PositiveSpectra s fid.h)
    (hfnl : IsFnl blind 0) (z bias : Option ℝ) (R : PngRecon M) (hread : ∀ p, R.readout (fun _ => 0) p = 0) (sigma : ℝ) :
    png "data_positions" "rdd" none id s blind fid z bias none (.instance R) sigma false [argOf "rdd" [⟨90, 0, 10⟩]] [none]
      [Positions.none] [none] = [.done (.positions (some [⟨0, 10, 0⟩]))] := by
  have hv : ∀ a, IsDisplacement M (fun _ => 0) a (fun _ => 0) := by
    intro a k
    simp [Mesh.r2c]
  obtain ⟨m, hm, h⟩ := C49_data_positions_partial hL (ptype := "rdd") (by simp [Known]) id hs hfnl z bias (.instance R) sigma
    [[⟨90, 0, 10⟩]] [none] [none] [none] (Or.inl (by simp)) (Or.inl (by simp)) R (.given rfl) (fun _ => 0)
    (isPngField_zero (Or.inl rfl) _) (fun _ _ => 0) hv
  have hz : ∀ p, readVec R (fun _ _ => 0) p = 0 := by
    intro p
    unfold readVec
    rw [hread]
    rfl
  simp only [hz] at h hm
  have hm0 : m = 0 := by
    obtain ⟨a, b, c⟩ := hm
    ext
    · simpa using a
    · simpa using b
    · simpa using c
  have hc : cart "rdd" id ⟨90, 0, 10⟩ = ⟨0, 10, 0⟩ := by
    simp only [cart, if_true, pointOf]
    have e : (90 : ℝ) * (Real.pi / 180) = Real.pi / 2 := by ring
    rw [e]
    ext <;> simp
  subst hm0
  simp only [List.map_cons, List.map_nil, hc, argOf?] at h
  rw [h]
  congr 4
  ext <;> simp

/-- On meshes of odd sizes the displacement field exists. -/
theorem C49_odd_mesh (hodd : ∀ d, Odd (M.n d)) (g : M.Idx → ℝ) (a : Fin 3) : ∃ v, IsDisplacement M g a v := by
  have hF : Hermitian M fun k => if k = 0 then 0 else
      Complex.I * (M.kvec k a / waveLength M k ^ 2 : ℝ) * M.r2c (fun i => (g i : ℂ)) k := by
    intro k
    have hk2 : waveLength M (-k) = waveLength M k := congrArg Real.sqrt (k2_neg M k)
    by_cases hk : k = 0
    · subst hk; simp
    · have hkv : M.kvec (-k) a = -M.kvec k a := by
        rcases kvec_neg M k a with hh | ⟨-, hh⟩
        · exact hh
        · obtain ⟨j, hj⟩ := hodd a
          rw [hj] at hh
          push_cast at hh
          omega
      simp only [if_neg hk, if_neg (neg_ne_zero.mpr hk), hk2, map_mul, Complex.conj_ofReal, Complex.conj_I, hkv]
      rw [hermitian_r2c M g k]
      push_cast
      ring
  refine ⟨M.c2rReal fun k => if k = 0 then 0 else
      Complex.I * (M.kvec k a / waveLength M k ^ 2 : ℝ) * M.r2c (fun i => (g i : ℂ)) k, fun k => ?_⟩
  have hre : (fun i => ((M.c2rReal (fun k => if k = 0 then 0 else
      Complex.I * (M.kvec k a / waveLength M k ^ 2 : ℝ) * M.r2c (fun i => (g i : ℂ)) k) i : ℝ) : ℂ)) =
      M.c2r fun k => if k = 0 then 0 else
      Complex.I * (M.kvec k a / waveLength M k ^ 2 : ℝ) * M.r2c (fun i => (g i : ℂ)) k := by
    funext i
    exact Complex.ext rfl ((C43_real_iff M _).mpr hF i).symm
  rw [hre, r2c_c2r]

/-- On meshes of even sizes the modes that `png` transforms back do not make a real field, because the largest frequency is kept: they
contradict each other among the stored ones. -/
theorem C49_even_mesh_violated : ∃ g : mesh4.Idx → ℝ,
    StoredInconsistent mesh4 fun k => mesh4.r2c (fun i => (g i : ℂ)) k * pngDispMult 0 k := by
  refine ⟨peak mesh4, not_real_of mesh4 (pngDispMult 0) nyquistMode (by decide) ?_⟩
  obtain ⟨h0, -, -, g0, -, -⟩ := nyquist_kvec
  have hp := Real.pi_pos
  unfold pngDispMult
  rw [nyquist_k2safe.1, nyquist_k2safe.2, h0, g0]
  intro h
  have e : Complex.I * ((-Real.pi / 2 : ℝ) : ℂ) / ((5 * Real.pi ^ 2 / 16 : ℝ) : ℂ) =
      ((-Real.pi / 2 / (5 * Real.pi ^ 2 / 16) : ℝ) : ℂ) * Complex.I := by
    push_cast
    ring
  rw [e] at h
  have := congrArg Complex.im h
  rw [Complex.conj_im, Complex.im_ofReal_mul, Complex.I_im, mul_one] at this
  have hneg : -Real.pi / 2 / (5 * Real.pi ^ 2 / 16) < 0 := div_neg_of_neg_of_pos (by linarith) (by positivity)
  linarith

/-- Non-vacuity: positive spectra, a blinded `fnl`, a reconstruction with bias 2 whose contrast is a peak, read at a node. -/
example : PositiveSpectra ⟨fun _ => 1, fun _ => 1, fun _ => 0⟩ 0.7 ∧ IsFnl { flatCosmo with derived := [("fnl", 20)] } 20 ∧
    ∃ (R : PngRecon mesh4) (g : mesh4.Idx → ℝ), R.bias = 2 ∧ (∀ p, R.readout (fun _ => 0) p = 0) ∧
      ∀ c, IsPngField mesh4 ⟨fun _ => 1, fun _ => 1, fun _ => 0⟩ 0.7 R.bias 20 (contrastOf R c 30) g := by
  obtain ⟨g, hg, -⟩ := C49_field_exists (M := mesh4) ⟨fun _ => 1, fun _ => 1, fun _ => 0⟩ 0.7 2 20 (peak mesh4)
  exact ⟨⟨by norm_num, fun _ _ => ⟨one_pos, one_pos⟩⟩, Or.inl rfl,
    ⟨2, 15, fun _ => 0, fun _ _ => peak mesh4, fun f _ => f 0, fun _ _ _ => 1, id⟩, g, rfl, fun _ => rfl, fun _ => hg⟩

end Verif.Props
