import Verif.Model.RoundedBlinding
import Verif.Props.RoundedMoves
import Verif.Props.BlindShuffle
import Verif.Lemmas.Fiber
import Verif.Lemmas.Bricks

/-!
# C134: blinded positions with rounding errors
-/

namespace Verif.Props.RoundedBlinding

open Verif Verif.Model Verif.Model.Rounded Verif.Model.Blinding Verif.Model.RoundedBlinding Verif.Lemmas.RoundedIsometry

variable {F : Fmt}

/-- Coordinates whose squares do not underflow. -/
def RegularV (F : Fmt) (p : V3 ℝ) : Prop := Rounded.Regular F p.x ∧ Rounded.Regular F p.y ∧ Rounded.Regular F p.z

/-- `q` is `s` times `p` up to seven rounding errors of each coordinate, and `e`. -/
def Scaled (F : Fmt) (s e : ℝ) (p q : V3 ℝ) : Prop :=
  |q.x - s * p.x| ≤ 7 * F.u * (s * |p.x| + e) ∧ |q.y - s * p.y| ≤ 7 * F.u * (s * |p.y| + e) ∧ |q.z - s * p.z| ≤ 7 * F.u * (s * |p.z| + e)

/-- No coordinate changes sign, and coordinates that are 0 stay so. -/
def SameSide (p q : V3 ℝ) : Prop :=
  ((0 ≤ p.x → 0 ≤ q.x) ∧ (p.x ≤ 0 → q.x ≤ 0)) ∧ ((0 ≤ p.y → 0 ≤ q.y) ∧ (p.y ≤ 0 → q.y ≤ 0)) ∧ ((0 ≤ p.z → 0 ≤ q.z) ∧ (p.z ≤ 0 → q.z ≤ 0))

theorem rnd_nonpos {x : ℝ} (h : x ≤ 0) : F.rnd x ≤ 0 := by
  have := Fmt.rnd_nonneg (F := F) (x := -x) (by linarith)
  rw [Fmt.rnd_neg] at this
  linarith

/-- Computed distance. -/
theorem distance_near (hu : F.u ≤ 1 / 1024) {p : V3 ℝ} (hp : RegularV F p) (h0 : p ≠ 0) :
    0 < distanceF F p ∧ (distanceF F p)⁻¹ ≤ (1 + 4 * F.u) * p.norm⁻¹ ∧ (1 - 4 * F.u) * p.norm⁻¹ ≤ (distanceF F p)⁻¹ := by
  have hu0 := Fmt.u_pos (F := F)
  have hN := V3.norm_pos h0
  have h := Rounded.C113_accuracy F p hp.1 hp.2.1 hp.2.2
  have e : Real.sqrt (p.x ^ 2 + p.y ^ 2 + p.z ^ 2) = p.norm := rfl
  rw [e] at h
  obtain ⟨h1, h2⟩ := h
  generalize F.u = u at *
  have c0 : 0 < (1 - u) ^ 3 := by
    have : 0 < 1 - u := by linarith
    positivity
  have hD : 0 < distanceF F p := lt_of_lt_of_le (mul_pos c0 hN) h1
  refine ⟨hD, ?_, ?_⟩
  · rw [inv_le_iff_one_le_mul₀ hD]
    have k : 1 ≤ (1 + 4 * u) * (1 - u) ^ 3 := by nlinarith [sq_nonneg u, mul_pos hu0 hu0, mul_pos (mul_pos hu0 hu0) hu0]
    calc (1 : ℝ) ≤ (1 + 4 * u) * (1 - u) ^ 3 := k
      _ = (1 + 4 * u) * p.norm⁻¹ * ((1 - u) ^ 3 * p.norm) := by field_simp
      _ ≤ _ := mul_le_mul_of_nonneg_left h1 (by positivity)
  · rw [← one_div (distanceF F p), le_div_iff₀ hD]
    have k : (1 - 4 * u) * (1 + u) ^ 3 ≤ 1 := by nlinarith [sq_nonneg u, mul_pos hu0 hu0, mul_pos (mul_pos hu0 hu0) hu0]
    have h3 : 0 ≤ (1 - 4 * u) * p.norm⁻¹ := mul_nonneg (by linarith) (by positivity)
    calc (1 - 4 * u) * p.norm⁻¹ * distanceF F p ≤ (1 - 4 * u) * p.norm⁻¹ * ((1 + u) ^ 3 * p.norm) := mul_le_mul_of_nonneg_left h2 h3
      _ = (1 - 4 * u) * (1 + u) ^ 3 := by field_simp
      _ ≤ 1 := k

/-- `d` divided by the computed distance. -/
theorem ratio_near (hu : F.u ≤ 1 / 1024) {p : V3 ℝ} (hp : RegularV F p) (h0 : p ≠ 0) {d : ℝ} (hd : 0 ≤ d) :
    |d / distanceF F p - d / p.norm| ≤ 4 * F.u * (d / p.norm) := by
  obtain ⟨-, h1, h2⟩ := distance_near hu hp h0
  have k1 := mul_le_mul_of_nonneg_left h1 hd
  have k2 := mul_le_mul_of_nonneg_left h2 hd
  rw [div_eq_mul_inv, div_eq_mul_inv, abs_le]
  constructor <;> linarith

theorem ap_coord (hu : F.u ≤ 1 / 1024) {p : V3 ℝ} (hp : RegularV F p) (h0 : p ≠ 0) {b : ℝ} (hb : 0 ≤ b) (x : ℝ) :
    |F.rnd (F.rnd (x * b) / distanceF F p) - b / p.norm * x| ≤ 7 * F.u * (b / p.norm * |x| + F.tiny * (1 + 1 / p.norm)) := by
  have hu0 := Fmt.u_pos (F := F)
  have ht := tiny_pos (F := F)
  obtain ⟨hD, h1, -⟩ := distance_near hu hp h0
  have hN := V3.norm_pos h0
  have r := ratio_near hu hp h0 hb
  have e1 := rnd_err_tiny (F := F) (x * b)
  have e2 := rnd_err_tiny (F := F) (F.rnd (x * b) / distanceF F p)
  have hD0 := inv_pos.2 hD
  have hn0 := inv_pos.2 hN
  rw [one_div]
  simp only [div_eq_mul_inv] at r e2 ⊢
  clear hD hN
  generalize (distanceF F p)⁻¹ = D at *
  generalize p.norm⁻¹ = n at *
  rw [abs_mul, abs_of_nonneg hb] at e1
  -- the product
  have s1 : |F.rnd (x * b) * D - x * b * D| ≤ F.u * (|x| * b + F.tiny) * D := by
    rw [← sub_mul, abs_mul, abs_of_pos hD0]
    exact mul_le_mul_of_nonneg_right e1 hD0.le
  have s2 : |x * b * D - b * n * x| ≤ 4 * F.u * (b * n) * |x| := by
    have : x * b * D - b * n * x = (b * D - b * n) * x := by ring
    rw [this, abs_mul]
    exact mul_le_mul_of_nonneg_right r (abs_nonneg _)
  have hDn : D ≤ (1 + 4 * F.u) * n := h1
  have s3 : F.u * (|x| * b + F.tiny) * D ≤ F.u * (|x| * b + F.tiny) * (257 / 256 * n) := by
    refine mul_le_mul_of_nonneg_left (hDn.trans (mul_le_mul_of_nonneg_right (by linarith) hn0.le)) (by positivity)
  have t1 := abs_add_three (F.rnd (F.rnd (x * b) * D) - F.rnd (x * b) * D) (F.rnd (x * b) * D - x * b * D) (x * b * D - b * n * x)
  rw [sub_add_sub_cancel, sub_add_sub_cancel] at t1
  have t2 := abs_add_three (F.rnd (x * b) * D - x * b * D) (x * b * D - b * n * x) (b * n * x)
  rw [sub_add_sub_cancel, sub_add_cancel, abs_mul (b * n), abs_of_nonneg (mul_nonneg hb hn0.le)] at t2
  obtain ⟨X, hX⟩ : ∃ X, X = b * n * |x| := ⟨_, rfl⟩
  have hX0 : 0 ≤ X := by rw [hX]; positivity
  have hT0 : 0 ≤ F.tiny * n := by positivity
  have s3' : F.u * (|x| * b + F.tiny) * (257 / 256 * n) = 257 / 256 * F.u * (X + F.tiny * n) := by rw [hX]; ring
  have s2' : 4 * F.u * (b * n) * |x| = 4 * F.u * X := by rw [hX]; ring
  rw [s2'] at s2
  rw [s3'] at s3
  rw [← hX] at t2 ⊢
  have y : |F.rnd (x * b) * D| ≤ 257 / 256 * F.u * (X + F.tiny * n) + 4 * F.u * X + X := by linarith
  have y2 : F.u * |F.rnd (x * b) * D| ≤ F.u * (257 / 256 * (1 / 1024) * (X + F.tiny * n) + 4 * (1 / 1024) * X + X) := by
    refine mul_le_mul_of_nonneg_left (y.trans ?_) hu0.le
    have a1 := mul_le_mul_of_nonneg_right hu hX0
    have a2 := mul_le_mul_of_nonneg_right hu hT0
    linarith
  have a3 := mul_nonneg hu0.le hX0
  have a4 := mul_nonneg hu0.le hT0
  have a5 := mul_pos hu0 ht
  linarith

/-- C134: Alcock-Paczynski blinding, in floating point: objects away from the observer keep their direction and get the blinded distance, up to
seven rounding errors of each coordinate, and no coordinate changes sign. -/
theorem C134_ap (hu : F.u ≤ 1 / 1024) {p : V3 ℝ} (hp : RegularV F p) (h0 : p ≠ 0) {b : ℝ} (hb : 0 ≤ b) :
    ∃ q, apRowF F b p = .ok q ∧ Scaled F (b / p.norm) (F.tiny * (1 + 1 / p.norm)) p q ∧ SameSide p q := by
  obtain ⟨hD, -⟩ := distance_near hu hp h0
  refine ⟨_, by simp only [apRowF, hD.ne', if_false]; rfl, ⟨ap_coord hu hp h0 hb _, ap_coord hu hp h0 hb _, ap_coord hu hp h0 hb _⟩, ?_⟩
  have key : ∀ x : ℝ, (0 ≤ x → 0 ≤ F.rnd (F.rnd (x * b) / distanceF F p)) ∧ (x ≤ 0 → F.rnd (F.rnd (x * b) / distanceF F p) ≤ 0) := fun x =>
    ⟨fun h => Fmt.rnd_nonneg (div_nonneg (Fmt.rnd_nonneg (mul_nonneg h hb)) hD.le),
      fun h => rnd_nonpos (div_nonpos_of_nonpos_of_nonneg (rnd_nonpos (mul_nonpos_of_nonpos_of_nonneg h hb)) hD.le)⟩
  exact ⟨key _, key _, key _⟩

theorem norm_scale {s : ℝ} (hs : 0 ≤ s) (p : V3 ℝ) : (s • p).norm = s * p.norm := by
  have : (s • p).norm = Real.sqrt (s ^ 2 * (p.x ^ 2 + p.y ^ 2 + p.z ^ 2)) := by
    unfold V3.norm
    congr 1
    simp
    ring
  rw [this, Real.sqrt_mul (sq_nonneg _), Real.sqrt_sq hs]
  rfl

/-- Distance of a scaled position. -/
theorem scaled_norm {s e : ℝ} (hs : 0 ≤ s) (he : 0 ≤ e) {p q : V3 ℝ} (h : Scaled F s e p q) : |q.norm - s * p.norm| ≤ 7 * F.u * (s * p.norm + 3 * e) := by
  have hu0 := Fmt.u_pos (F := F)
  obtain ⟨h1, h2, h3⟩ := h
  obtain ⟨w, hw⟩ : ∃ w : V3 ℝ, w = (7 * F.u * s) • ⟨|p.x|, |p.y|, |p.z|⟩ := ⟨_, rfl⟩
  obtain ⟨k, hk⟩ : ∃ k : V3 ℝ, k = ⟨7 * F.u * e, 7 * F.u * e, 7 * F.u * e⟩ := ⟨_, rfl⟩
  have b : (q - s • p).norm ≤ (w + k).norm := by
    refine norm_mono ?_ ?_ ?_
    · simp [hw, hk]; linarith
    · simp [hw, hk]; linarith
    · simp [hw, hk]; linarith
  have n1 : w.norm = 7 * F.u * s * p.norm := by
    rw [hw, norm_scale (by positivity)]
    simp [V3.norm]
  have n2 : k.norm ≤ 3 * (7 * F.u * e) := by
    have : |7 * F.u * e| ≤ 7 * F.u * e := (abs_of_nonneg (by positivity)).le
    rw [hk]
    exact norm_le_three this this this
  have n3 := norm_add_le w k
  have n4 : (s • p).norm = s * p.norm := norm_scale hs p
  have n5 := norm_sub_le' q (s • p)
  have n6 := norm_sub_le' (s • p) q
  rw [norm_sub_comm] at n6
  rw [abs_le]
  constructor <;> linarith

/-- C134: the distance of an object with Alcock-Paczynski blinding is the blinded one, up to seven rounding errors. -/
theorem C134_ap_distance (hu : F.u ≤ 1 / 1024) {p : V3 ℝ} (hp : RegularV F p) (h0 : p ≠ 0) {b : ℝ} (hb : 0 ≤ b) {q : V3 ℝ} (h : apRowF F b p = .ok q) :
    |q.norm - b| ≤ 7 * F.u * (b + 3 * (F.tiny * (1 + 1 / p.norm))) := by
  obtain ⟨q', h1, h2, -⟩ := C134_ap hu hp h0 hb
  rw [h1] at h
  obtain rfl := Except.ok.inj h
  have hN := V3.norm_pos h0
  have ht := tiny_pos (F := F)
  have := scaled_norm (by positivity) (by positivity) h2
  rwa [div_mul_cancel₀ _ hN.ne'] at this

theorem shuffle_coord (hu : F.u ≤ 1 / 1024) {p : V3 ℝ} (hp : RegularV F p) (h0 : p ≠ 0) {d : ℝ} (hd : 0 ≤ d) {x : ℝ} (hx : |x| ≤ p.norm) :
    |F.rnd (x * F.rnd (d / distanceF F p)) - d / p.norm * x| ≤ 7 * F.u * (d / p.norm * |x| + F.tiny * (1 + p.norm)) := by
  have hu0 := Fmt.u_pos (F := F)
  have ht := tiny_pos (F := F)
  obtain ⟨hD, -⟩ := distance_near hu hp h0
  have hN := V3.norm_pos h0
  have r := ratio_near hu hp h0 hd
  obtain ⟨s, hs⟩ : ∃ s, s = d / p.norm := ⟨_, rfl⟩
  have hs0 : 0 ≤ s := by rw [hs]; positivity
  rw [← hs] at r ⊢
  clear hs
  have e1 := rnd_err_tiny (F := F) (d / distanceF F p)
  generalize F.rnd (d / distanceF F p) = q at *
  have e2 := rnd_err_tiny (F := F) (x * q)
  have b1 : |d / distanceF F p| ≤ 257 / 256 * s := by
    have := abs_add_le (d / distanceF F p - s) s
    rw [sub_add_cancel, abs_of_nonneg hs0] at this
    have := mul_le_mul_of_nonneg_right hu hs0
    linarith
  have b2 : |q - s| ≤ F.u * (257 / 256 * s + F.tiny) + 4 * F.u * s := by
    have t := abs_add_le (q - d / distanceF F p) (d / distanceF F p - s)
    rw [sub_add_sub_cancel] at t
    have := mul_le_mul_of_nonneg_left (add_le_add_left b1 F.tiny) hu0.le
    linarith
  have b3 : |x * q| ≤ |x| * (s + |q - s|) := by
    rw [abs_mul]
    refine mul_le_mul_of_nonneg_left ?_ (abs_nonneg _)
    have := abs_add_le (q - s) s
    rw [sub_add_cancel, abs_of_nonneg hs0] at this
    linarith
  have t := abs_add_le (F.rnd (x * q) - x * q) (x * q - s * x)
  rw [sub_add_sub_cancel] at t
  have t2 : |x * q - s * x| = |x| * |q - s| := by
    rw [show x * q - s * x = x * (q - s) by ring, abs_mul]
  have b4 := mul_le_mul_of_nonneg_left b2 (abs_nonneg x)
  have b5 := mul_le_mul_of_nonneg_left b3 hu0.le
  have b6 : F.u * (|x| * |q - s|) ≤ 1 / 1024 * (|x| * |q - s|) := mul_le_mul_of_nonneg_right hu (by positivity)
  have b7 : F.u * (F.tiny * |x|) ≤ F.u * (F.tiny * p.norm) := mul_le_mul_of_nonneg_left (mul_le_mul_of_nonneg_left hx ht.le) hu0.le
  have c1 : 0 ≤ F.u * (s * |x|) := by positivity
  have c2 : 0 ≤ F.u * (F.tiny * p.norm) := by positivity
  have c3 : 0 ≤ F.u * F.tiny := by positivity
  linarith

/-- A selected object: same direction, and the given distance, up to rounding errors; bit for bit if that distance is its own. With sky coordinates
the third one is replaced, the others unchanged. -/
structure Given (F : Fmt) (isrdd : Bool) (p : V3 ℝ) (d : ℝ) (q : V3 ℝ) : Prop where
  sky : isrdd = true → q = ⟨p.x, p.y, d⟩
  scaled : isrdd = false → Scaled F (d / p.norm) (F.tiny * (1 + p.norm)) p q ∧ SameSide p q
  own : d = radialF F isrdd p → q = p

theorem set_given (hu : F.u ≤ 1 / 1024) {isrdd : Bool} {p : V3 ℝ} {d : ℝ} {q : V3 ℝ} (hp : isrdd = false → RegularV F p ∧ p ≠ 0 ∧ 0 ≤ d)
    (h : setRadialF F isrdd p d = .ok q) : Given F isrdd p d q := by
  cases isrdd with
  | true =>
    have h : q = ⟨p.x, p.y, d⟩ := (Except.ok.inj h).symm
    subst h
    refine ⟨fun _ => rfl, by simp, fun e => ?_⟩
    have : d = p.z := e
    rw [this]
  | false =>
    obtain ⟨hr, h0, hd⟩ := hp rfl
    obtain ⟨hD, -⟩ := distance_near hu hr h0
    simp only [setRadialF, Bool.false_eq_true, if_false, hD.ne'] at h
    obtain rfl := (Except.ok.inj h).symm
    obtain ⟨n1, n2, n3⟩ := abs_le_norm p
    have hq : 0 ≤ F.rnd (d / distanceF F p) := Fmt.rnd_nonneg (div_nonneg hd hD.le)
    have key : ∀ x : ℝ, (0 ≤ x → 0 ≤ F.rnd (x * F.rnd (d / distanceF F p))) ∧ (x ≤ 0 → F.rnd (x * F.rnd (d / distanceF F p)) ≤ 0) := fun x =>
      ⟨fun h => Fmt.rnd_nonneg (mul_nonneg h hq), fun h => rnd_nonpos (mul_nonpos_of_nonpos_of_nonneg h hq)⟩
    refine ⟨by simp, fun _ => ⟨⟨shuffle_coord hu hr h0 hd n1, shuffle_coord hu hr h0 hd n2, shuffle_coord hu hr h0 hd n3⟩, key _, key _, key _⟩, fun e => ?_⟩
    have e : d = distanceF F p := e
    have one : F.rnd 1 = 1 := Fmt.rnd_exact ⟨1, 0, by have := F.hp; exact_mod_cast Nat.one_le_two_pow, by have := F.he; omega, by norm_num⟩
    rw [e, div_self hD.ne', one, mul_one, mul_one, mul_one, Fmt.rnd_exact hr.1.1, Fmt.rnd_exact hr.2.1.1, Fmt.rnd_exact hr.2.2.1]

theorem masked_assign {α : Type} (m : List Bool) (l bs : List α) (hm : m.length = l.length) (h : bs.length = (masked m l).length) :
    masked m (assignMasked m l bs) = bs := by
  induction m generalizing l bs with
  | nil =>
    cases l with
    | nil => simpa [masked] using h
    | cons a l => simp at hm
  | cons b m ih =>
    cases l with
    | nil => simp at hm
    | cons a l =>
      replace hm : m.length = l.length := by simpa using hm
      cases b with
      | true =>
        cases bs with
        | nil => simp [masked] at h
        | cons c bs => simp [masked, assignMasked, ih l bs hm (by simpa [masked] using h)]
      | false => simp [masked, assignMasked, ih l bs hm (by simpa [masked] using h)]

theorem assign_unselected {α : Type} (m : List Bool) (l bs : List α) (i : ℕ) (h : m[i]? = some false) : (assignMasked m l bs)[i]? = l[i]? := by
  induction m generalizing l bs i with
  | nil => simp at h
  | cons b m ih =>
    cases l with
    | nil => cases b <;> simp [assignMasked]
    | cons a l =>
      cases i with
      | zero =>
        have : b = false := by simpa using h
        subst this
        simp [assignMasked]
      | succ i =>
        have h : m[i]? = some false := by simpa using h
        cases b with
        | true => cases bs <;> simp [assignMasked, ih l _ i h]
        | false => simp [assignMasked, ih l bs i h]

/-- C134: shuffling, in floating point: rows keep their order; rows that are not selected are unchanged bit for bit; the distances given to
selected rows are those of selected rows in another order, bit for bit with sky coordinates and up to seven rounding errors otherwise. -/
theorem C134_shuffle (hu : F.u ≤ 1 / 1024) {isrdd : Bool} {frac : ℝ} {u : List ℝ} {shuf : List ℝ → List ℝ} (hshuf : ∀ l, (shuf l).Perm l)
    {rows : List (V3 ℝ)} (hlen : u.length = rows.length) (hreg : isrdd = false → ∀ p ∈ rows, RegularV F p ∧ p ≠ 0) :
    ∃ out new, shuffleF F isrdd frac u shuf rows = .ok out ∧ out.length = rows.length ∧
      (∀ i, ∀ (h : i < u.length), frac ≤ u[i] → out[i]? = rows[i]?) ∧
      new.Perm ((masked (shuffleMask frac u) rows).map (radialF F isrdd)) ∧
      List.Forall₂ (fun pd q => Given F isrdd pd.1 pd.2 q) ((masked (shuffleMask frac u) rows).zip new) (masked (shuffleMask frac u) out) ∧
      (masked (shuffleMask frac u) out).length = new.length := by
  set mask := shuffleMask frac u with hmask
  have hm : mask.length = rows.length := by rw [hmask, shuffleMask, List.length_map, hlen]
  set new := shuf ((masked mask rows).map (radialF F isrdd)) with hnew
  have hperm : new.Perm ((masked mask rows).map (radialF F isrdd)) := hshuf _
  have hnl : new.length = (masked mask rows).length := by rw [hperm.length_eq, List.length_map]
  have hd : isrdd = false → ∀ d ∈ new, 0 ≤ d := by
    intro hi d hd
    obtain ⟨p, -, rfl⟩ := List.mem_map.1 (hperm.mem_iff.1 hd)
    rw [hi]
    exact Fmt.rnd_nonneg (Real.sqrt_nonneg _)
  have hok : ∀ pd ∈ (masked mask rows).zip new, ∃ q, setRadialF F isrdd pd.1 pd.2 = .ok q ∧ Given F isrdd pd.1 pd.2 q := by
    intro pd hpd
    have h1 := mem_masked (List.of_mem_zip hpd).1
    have h2 := (List.of_mem_zip hpd).2
    have hp : isrdd = false → RegularV F pd.1 ∧ pd.1 ≠ 0 ∧ 0 ≤ pd.2 := fun hi => ⟨(hreg hi _ h1).1, (hreg hi _ h1).2, hd hi _ h2⟩
    obtain ⟨q, hq⟩ : ∃ q, setRadialF F isrdd pd.1 pd.2 = .ok q := by
      cases hi : isrdd with
      | true => exact ⟨_, rfl⟩
      | false =>
        obtain ⟨hD, -⟩ := distance_near hu (hp hi).1 (hp hi).2.1
        exact ⟨_, by simp only [setRadialF, Bool.false_eq_true, if_false, hD.ne']; rfl⟩
    exact ⟨q, hq, set_given hu hp hq⟩
  obtain ⟨moved, hmoved⟩ : ∃ moved, ((masked mask rows).zip new).mapM (fun pd => setRadialF F isrdd pd.1 pd.2) = .ok moved := by
    refine ⟨_, Lemmas.Bricks.mapM_fun (g := fun pd => match setRadialF F isrdd pd.1 pd.2 with | .ok q => q | .error _ => 0) fun pd hpd => ?_⟩
    obtain ⟨q, hq, -⟩ := hok pd hpd
    simp only [hq]
  have hF := Lemmas.Fiber.mapM_forall₂ hmoved
  have hml : moved.length = (masked mask rows).length := by
    rw [← hF.length_eq, List.length_zip, hnl, min_self]
  refine ⟨assignMasked mask rows moved, new, ?_, length_assignMasked _ _ _, ?_, hperm, ?_, ?_⟩
  · simp only [shuffleF, ← hmask, ← hnew, hmoved]
    rfl
  · intro i hi hfr
    refine assign_unselected _ _ _ i ?_
    rw [hmask, shuffleMask, List.getElem?_map, List.getElem?_eq_getElem hi]
    simp [hfr]
  · rw [masked_assign _ _ _ hm hml]
    refine RoundedMoves.forall_imp hF fun pd hpd q hq => ?_
    obtain ⟨q', hq', hg⟩ := hok pd hpd
    rw [hq'] at hq
    rwa [← Except.ok.inj hq]
  · rw [masked_assign _ _ _ hm hml, hml, hnl]

/-- C134: the fraction of shuffled objects is defined when the blinded growth rate is not above the fiducial one, and is then between 0 and 1,
and the square of the ratio up to five rounding errors of 1. -/
theorem C134_fraction {fb ff : ℝ} (hb : 0 ≤ fb) (h0 : 0 < ff) (h : fb ≤ ff) :
    ∃ frac, fractionF F fb ff = .ok frac ∧ 0 ≤ frac ∧ frac ≤ 1 ∧ |frac - (fb / ff) ^ 2| ≤ 5 * F.u := by
  have f1 : F.IsFloat 1 := ⟨1, 0, by have := F.hp; exact_mod_cast Nat.one_le_two_pow, by have := F.he; omega, by norm_num⟩
  have a0 : 0 ≤ fb / ff := div_nonneg hb h0.le
  have a1 : fb / ff ≤ 1 := (div_le_one h0).2 h
  have q0 : 0 ≤ F.rnd (fb / ff) := Fmt.rnd_nonneg a0
  have q1 : F.rnd (fb / ff) ≤ 1 := Fmt.rnd_le f1 a1
  have s1 : F.rnd (F.rnd (fb / ff) ^ 2) ≤ 1 := Fmt.rnd_le f1 (pow_le_one₀ q0 q1)
  refine ⟨_, by simp only [fractionF, not_lt.2 s1, if_false], Fmt.rnd_nonneg (sq_nonneg _), s1, ?_⟩
  have hu0 := Fmt.u_pos (F := F)
  have ht := tiny_le (F := F)
  have e1 := rnd_err_tiny (F := F) (fb / ff)
  have e2 := rnd_err_tiny (F := F) (F.rnd (fb / ff) ^ 2)
  generalize F.rnd (F.rnd (fb / ff) ^ 2) = w at *
  generalize F.rnd (fb / ff) = r at *
  generalize fb / ff = a at *
  rw [abs_of_nonneg a0] at e1
  rw [abs_of_nonneg (sq_nonneg r)] at e2
  have e1 : |r - a| ≤ F.u * (3 / 2) := e1.trans (mul_le_mul_of_nonneg_left (by linarith) hu0.le)
  have e2 : |w - r ^ 2| ≤ F.u * (3 / 2) := e2.trans (mul_le_mul_of_nonneg_left (by nlinarith) hu0.le)
  have e3 : |r ^ 2 - a ^ 2| ≤ F.u * (3 / 2) * 2 := by
    rw [sq_sub_sq, mul_comm, abs_mul, abs_of_nonneg (by linarith : 0 ≤ r + a)]
    exact mul_le_mul e1 (by linarith) (by linarith) (by positivity)
  have := abs_add_le (w - r ^ 2) (r ^ 2 - a ^ 2)
  rw [sub_add_sub_cancel] at this
  linarith

theorem one_lt_ratio {a b : ℝ} (ha : F.IsFloat a) (hb : F.IsFloat b) (h0 : 0 < a) (h : a < b) : 1 < F.rnd (b / a) := by
  have f2 : F.IsFloat 2 := ⟨1, 1, by have := F.hp; exact_mod_cast Nat.one_le_two_pow, by have := F.he; omega, by norm_num⟩
  have ea : (rne (a / 2 ^ F.expo a) : ℝ) * 2 ^ F.expo a = a := Fmt.rnd_exact ha
  have eb : (rne (b / 2 ^ F.expo b) : ℝ) * 2 ^ F.expo b = b := Fmt.rnd_exact hb
  have hb0 : 0 < b := h0.trans h
  have hE : F.expo a ≤ F.expo b := by
    unfold Fmt.expo
    rw [abs_of_pos h0, abs_of_pos hb0]
    exact max_le_max (sub_le_sub_right (Int.log_mono_right h0 h.le) _) le_rfl
  obtain ⟨k, hk⟩ := Int.eq_ofNat_of_zero_le (sub_nonneg.2 hE)
  have hbE : (2 : ℝ) ^ F.expo b = 2 ^ k * 2 ^ F.expo a := by
    rw [← zpow_natCast, ← zpow_add₀ (by norm_num)]
    congr 1
    omega
  have hlt := Fmt.abs_lt_expo (F := F) a
  rw [abs_of_pos h0, div_lt_iff₀ (Fmt.two_zpow_pos _)] at hlt
  have hp0 := Fmt.two_zpow_pos (F.expo a)
  rw [hbE] at eb
  generalize rne (b / (2 ^ k * 2 ^ F.expo a)) = n at eb
  generalize rne (a / 2 ^ F.expo a) = m at ea
  generalize (2 : ℝ) ^ F.expo a = w at *
  have hmn : m < n * 2 ^ k := by
    have : (m : ℝ) * w < (n * 2 ^ k : ℝ) * w := by
      rw [ea, mul_assoc, eb]
      exact h
    exact_mod_cast lt_of_mul_lt_mul_right this hp0.le
  have hd : a + w ≤ b := by
    have : (m : ℝ) + 1 ≤ n * 2 ^ k := by exact_mod_cast hmn
    have := mul_le_mul_of_nonneg_right this hp0.le
    rw [add_mul, ea, mul_assoc, eb] at this
    linarith
  have hr : 1 + F.u < b / a := by
    rw [lt_div_iff₀ h0, add_mul, one_mul]
    refine lt_of_lt_of_le ?_ hd
    have : F.u * a < F.u * (2 ^ F.p * w) := mul_lt_mul_of_pos_left hlt Fmt.u_pos
    rw [← mul_assoc, show F.u * 2 ^ F.p = 1 by unfold Fmt.u; field_simp, one_mul] at this
    linarith
  generalize b / a = x at *
  have hu0 := Fmt.u_pos (F := F)
  by_cases h2 : 2 ≤ x
  · exact lt_of_lt_of_le (by norm_num) (Fmt.le_rnd f2 h2)
  · have hl : Int.log 2 |x| = 0 := by
      rw [abs_of_pos (by linarith)]
      refine le_antisymm ?_ ?_
      · have : Int.log 2 x < 1 := (Int.lt_zpow_iff_log_lt (b := 2) (by norm_num) (by linarith)).1 (by simpa using h2)
        omega
      · exact (Int.zpow_le_iff_le_log (b := 2) (by norm_num) (by linarith)).1 (by simp; linarith)
    have he : F.expo x = 1 - F.p := by
      unfold Fmt.expo
      rw [hl, max_eq_left (by have := F.he; omega)]
      ring
    have herr := Fmt.rnd_err_expo (F := F) x
    rw [he, zpow_sub₀ (by norm_num), zpow_one, zpow_natCast] at herr
    have e : (2 : ℝ) / 2 ^ F.p / 2 = F.u := by
      unfold Fmt.u
      field_simp
    rw [e] at herr
    have := (abs_le.1 herr).1
    linarith

/-- C134: shuffling, in floating point, is refused exactly when the blinded growth rate is greater than the fiducial one, even by the last bit. -/
theorem C134_refused {fb ff : ℝ} (hfb : F.IsFloat fb) (hff : F.IsFloat ff) (hb : 0 ≤ fb) (h0 : 0 < ff) :
    fractionF F fb ff = .error .valueError ↔ ff < fb := by
  constructor
  · intro h
    by_contra hle
    obtain ⟨frac, hf, -⟩ := C134_fraction (F := F) hb h0 (not_lt.1 hle)
    rw [hf] at h
    cases h
  · intro h
    have h1 := one_lt_ratio hff hfb h0 h
    have h2 : F.rnd (fb / ff) ≤ F.rnd (F.rnd (fb / ff) ^ 2) := Fmt.le_rnd (Fmt.rnd_isFloat _) (by nlinarith)
    simp only [fractionF, h1.trans_le h2, if_true]

/-- C134: redshift-space blinding, in floating point: positions are bit for bit the same when growth rates are equal; otherwise the displacement is
multiplied by the ratio of growth rates minus 1, up to rounding errors. -/
theorem C134_rsd (hu : F.u ≤ 1 / 1024) {fb f x s : ℝ} (hf : f ≠ 0) :
    (F.IsFloat x → fb = f → rsdF F fb f x s = x) ∧
    |rsdF F fb f x s - (x + (fb / f - 1) * s)| ≤ F.u * (|x| + 6 * (|fb / f| + 1) * |s| + 3 * F.tiny) := by
  have hu0 := Fmt.u_pos (F := F)
  have ht := tiny_pos (F := F)
  have ht1 := tiny_le (F := F)
  constructor
  · intro hx e
    have one : F.rnd 1 = 1 := Fmt.rnd_exact ⟨1, 0, by have := F.hp; exact_mod_cast Nat.one_le_two_pow, by have := F.he; omega, by norm_num⟩
    simp only [rsdF, e, div_self hf, one, sub_self, Fmt.rnd_zero, zero_mul, add_zero]
    exact Fmt.rnd_exact hx
  · unfold rsdF
    generalize fb / f = a
    have e1 := rnd_err_tiny (F := F) a
    generalize F.rnd a = r at *
    have e2 := rnd_err_tiny (F := F) (r - 1)
    generalize F.rnd (r - 1) = c at *
    have e3 := rnd_err_tiny (F := F) (c * s)
    generalize F.rnd (c * s) = m at *
    have e4 := rnd_err_tiny (F := F) (x + m)
    have A0 := abs_nonneg a
    have S0 := abs_nonneg s
    have k1 : |r - 1| ≤ |a| + 1 + F.u * (|a| + F.tiny) := by
      have := abs_add_three (r - a) a (-1)
      rw [sub_add_cancel, abs_neg, abs_one, ← sub_eq_add_neg] at this
      linarith
    have ua : F.u * |a| ≤ 1 / 1024 * |a| := mul_le_mul_of_nonneg_right hu A0
    have ut : F.u * F.tiny ≤ 1 / 1024 * F.tiny := mul_le_mul_of_nonneg_right hu ht.le
    have k2 : |c - (a - 1)| ≤ 3 * F.u * (|a| + 1) := by
      have t := abs_add_le (c - (r - 1)) (r - a)
      have e : c - (r - 1) + (r - a) = c - (a - 1) := by ring
      rw [e] at t
      have : F.u * |r - 1| ≤ F.u * (|a| + 1 + 1 / 1024 * |a| + 1 / 1024 * F.tiny) := mul_le_mul_of_nonneg_left (by linarith) hu0.le
      have h1 := mul_nonneg hu0.le A0
      have h2 : F.u * F.tiny ≤ F.u * (1 / 2) := mul_le_mul_of_nonneg_left ht1 hu0.le
      linarith
    have k3 : |c| ≤ 1.01 * (|a| + 1) := by
      have t := abs_add_three (c - (a - 1)) a (-1)
      rw [abs_neg, abs_one] at t
      have e : c - (a - 1) + a + -1 = c := by ring
      rw [e] at t
      have : 3 * F.u * (|a| + 1) ≤ 3 * (1 / 1024) * (|a| + 1) := mul_le_mul_of_nonneg_right (by linarith) (by linarith)
      linarith
    have k4 : |c * s| ≤ 1.01 * (|a| + 1) * |s| := by
      rw [abs_mul]
      exact mul_le_mul_of_nonneg_right k3 S0
    have k5 : |m - (a - 1) * s| ≤ F.u * (4.01 * (|a| + 1) * |s| + F.tiny) := by
      have t := abs_add_le (m - c * s) (c * s - (a - 1) * s)
      rw [sub_add_sub_cancel, ← sub_mul, abs_mul (c - (a - 1))] at t
      have h1 := mul_le_mul_of_nonneg_right k2 S0
      have h2 := mul_le_mul_of_nonneg_left k4 hu0.le
      linarith
    have P0 : 0 ≤ (|a| + 1) * |s| := by positivity
    have k6 : |m| ≤ 1.02 * (|a| + 1) * |s| + F.tiny := by
      have t := abs_add_le (m - c * s) (c * s)
      rw [sub_add_cancel] at t
      have h1 : F.u * (|c * s| + F.tiny) ≤ 1 / 1024 * (|c * s| + F.tiny) := mul_le_mul_of_nonneg_right hu (by positivity)
      linarith
    have t := abs_add_le (F.rnd (x + m) - (x + m)) (m - (a - 1) * s)
    have e : F.rnd (x + m) - (x + m) + (m - (a - 1) * s) = F.rnd (x + m) - (x + (a - 1) * s) := by ring
    rw [e] at t
    have h1 : F.u * (|x + m| + F.tiny) ≤ F.u * (|x| + (1.02 * (|a| + 1) * |s| + F.tiny) + F.tiny) :=
      mul_le_mul_of_nonneg_left (by linarith [abs_add_le x m]) hu0.le
    have h2 := mul_nonneg hu0.le P0
    linarith

theorem regular_int (n : ℤ) (h1 : 1 ≤ n) (h2 : n ≤ 100) : Rounded.Regular binary64 n := by
  have ht : binary64.tiny ≤ 1 := tiny_le.trans (by norm_num)
  refine ⟨⟨n, 0, ?_, by norm_num [binary64], by norm_num⟩, .inl (ht.trans ?_)⟩
  · have e : (2 : ℤ) ^ binary64.p = 9007199254740992 := by norm_num [binary64]
    rw [e, abs_of_pos (by omega)]
    omega
  · have : (1 : ℝ) ≤ n := by exact_mod_cast h1
    nlinarith

theorem binary64_u : binary64.u ≤ 1 / 1024 := by norm_num [Fmt.u, binary64]

/-- Non-vacuity: an object at (3, 4, 12) given distance 26. -/
example : ∃ q, apRowF binary64 26 ⟨3, 4, 12⟩ = .ok q ∧ |q.norm - 26| ≤ 1 / 10 ^ 12 := by
  have hp : RegularV binary64 ⟨3, 4, 12⟩ := ⟨by exact_mod_cast regular_int 3 (by norm_num) (by norm_num),
    by exact_mod_cast regular_int 4 (by norm_num) (by norm_num), by exact_mod_cast regular_int 12 (by norm_num) (by norm_num)⟩
  have h0 : (⟨3, 4, 12⟩ : V3 ℝ) ≠ 0 := fun h => by
    have := congrArg V3.x h
    norm_num at this
  have hn : (⟨3, 4, 12⟩ : V3 ℝ).norm = 13 := by
    unfold V3.norm
    rw [show (3 : ℝ) ^ 2 + 4 ^ 2 + 12 ^ 2 = 13 ^ 2 by norm_num, Real.sqrt_sq (by norm_num)]
  obtain ⟨q, hq, -⟩ := C134_ap binary64_u hp h0 (b := 26) (by norm_num)
  refine ⟨q, hq, (C134_ap_distance binary64_u hp h0 (by norm_num) hq).trans ?_⟩
  have hu : binary64.u = 1 / 2 ^ 53 := by norm_num [Fmt.u, binary64]
  have ht : binary64.tiny ≤ 1 := tiny_le.trans (by norm_num)
  rw [hu, hn]
  have : (26 : ℝ) + 3 * (binary64.tiny * (1 + 1 / 13)) ≤ 100 := by linarith
  exact (mul_le_mul_of_nonneg_left this (by norm_num)).trans (by norm_num)

/-- Non-vacuity: the distances of two objects of three are exchanged; the third is as before. -/
example : ∃ out, shuffleF binary64 false (1 / 4) [1 / 8, 1 / 2, 0] List.reverse [⟨3, 4, 12⟩, ⟨1, 1, 1⟩, ⟨1, 2, 2⟩] = .ok out ∧
    out[1]? = some ⟨1, 1, 1⟩ ∧ out.length = 3 := by
  have hr : ∀ p ∈ [(⟨3, 4, 12⟩ : V3 ℝ), ⟨1, 1, 1⟩, ⟨1, 2, 2⟩], RegularV binary64 p ∧ p ≠ 0 := by
    have r1 : Rounded.Regular binary64 1 := by exact_mod_cast regular_int 1 (by norm_num) (by norm_num)
    have r2 : Rounded.Regular binary64 2 := by exact_mod_cast regular_int 2 (by norm_num) (by norm_num)
    have r3 : Rounded.Regular binary64 3 := by exact_mod_cast regular_int 3 (by norm_num) (by norm_num)
    have r4 : Rounded.Regular binary64 4 := by exact_mod_cast regular_int 4 (by norm_num) (by norm_num)
    have r12 : Rounded.Regular binary64 12 := by exact_mod_cast regular_int 12 (by norm_num) (by norm_num)
    have ne : ∀ p : V3 ℝ, p.x ≠ 0 → p ≠ 0 := fun p h e => h (by rw [e]; rfl)
    intro p hp
    simp only [List.mem_cons, List.not_mem_nil, or_false] at hp
    rcases hp with rfl | rfl | rfl
    · exact ⟨⟨r3, r4, r12⟩, ne _ (by norm_num)⟩
    · exact ⟨⟨r1, r1, r1⟩, ne _ (by norm_num)⟩
    · exact ⟨⟨r1, r2, r2⟩, ne _ (by norm_num)⟩
  obtain ⟨out, new, h1, h2, h3, -⟩ := C134_shuffle binary64_u (isrdd := false) (frac := 1 / 4) (u := [1 / 8, 1 / 2, 0])
    (fun l => List.reverse_perm l) (by rfl) fun _ => hr
  exact ⟨out, h1, h3 1 (by simp) (by norm_num), h2⟩

/-- Non-vacuity: growth rates 0.5 and 0.75. -/
example : ∃ frac, fractionF binary64 (1 / 2) (3 / 4) = .ok frac ∧ 0 ≤ frac ∧ frac ≤ 1 ∧ |frac - (1 / 2 / (3 / 4)) ^ 2| ≤ 5 * binary64.u := C134_fraction (by norm_num) (by norm_num) (by norm_num)

end Verif.Props.RoundedBlinding
