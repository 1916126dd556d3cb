import Verif.Proofs.BundleAdjustment
import Verif.Props.Pose
import Verif.Props.RotationReal

/-!
# C56: bundle adjustment
-/

namespace Ubitrack.BundleAdjustment

open Spec ProjectionFunction RotationFunction FunctionComposition

variable {nc np : ℕ}

/-- Specification of the layout: the first `7 nc` parameters are the quaternions and translations of the cameras. -/
def cam (x : Vec ℝ (nc * 7 + np * 3)) (c : Fin nc) (k : Fin 7) : ℝ := x ⟨c * 7 + k, by omega⟩

/-- Specification of the layout: the last `3 np` parameters are the coordinates of the points. -/
def pt (x : Vec ℝ (nc * 7 + np * 3)) (p : Fin np) (k : Fin 3) : ℝ := x ⟨nc * 7 + p * 3 + k, by omega⟩

/-- Specification: the image of point `p` in camera `c`, `dehomogenize( q p q* + t )`. -/
noncomputable def image (x : Vec ℝ (nc * 7 + np * 3)) (c : Fin nc) (p : Fin np) : Vec ℝ 2 :=
  dehom (sandwich ![cam x c 0, cam x c 1, cam x c 2, cam x c 3] (pt x p) + ![cam x c 4, cam x c 5, cam x c 6])

/-- The image of a point as a function of the ten parameters it depends on. -/
noncomputable def image10 (v : Vec ℝ 10) : Vec ℝ 2 :=
  dehom (sandwich ![v 0, v 1, v 2, v 3] ![v 7, v 8, v 9] + ![v 4, v 5, v 6])

/-- The entries that the code computes for one camera and one point. -/
noncomputable def pairJac (v : Vec ℝ 10) : Mat ℝ 2 10 := jacobianStep (n_cams := 1) (n_pts3D := 1) v 0 0 0 0

/-- The point in the camera's coordinates. -/
def inner10 (v : Vec ℝ 10) : Vec ℝ 3 := sandwich ![v 0, v 1, v 2, v 3] ![v 7, v 8, v 9] + ![v 4, v 5, v 6]

def inner10Jac (v : Vec ℝ 10) : Mat ℝ 3 10 :=
  !![2 * (v 0 * v 7 + v 1 * v 8 + v 2 * v 9), 2 * (-v 1 * v 7 + v 0 * v 8 + v 3 * v 9), 2 * (-v 2 * v 7 - v 3 * v 8 + v 0 * v 9),
      2 * (v 3 * v 7 - v 2 * v 8 + v 1 * v 9), 1, 0, 0,
      v 3 ^ 2 + v 0 ^ 2 - v 1 ^ 2 - v 2 ^ 2, 2 * (v 0 * v 1 - v 3 * v 2), 2 * (v 0 * v 2 + v 3 * v 1);
    2 * (v 1 * v 7 - v 0 * v 8 - v 3 * v 9), 2 * (v 0 * v 7 + v 1 * v 8 + v 2 * v 9), 2 * (v 3 * v 7 - v 2 * v 8 + v 1 * v 9),
      2 * (v 2 * v 7 + v 3 * v 8 - v 0 * v 9), 0, 1, 0,
      2 * (v 0 * v 1 + v 3 * v 2), v 3 ^ 2 - v 0 ^ 2 + v 1 ^ 2 - v 2 ^ 2, 2 * (v 1 * v 2 - v 3 * v 0);
    2 * (v 2 * v 7 + v 3 * v 8 - v 0 * v 9), 2 * (-v 3 * v 7 + v 2 * v 8 - v 1 * v 9), 2 * (v 0 * v 7 + v 1 * v 8 + v 2 * v 9),
      2 * (-v 1 * v 7 + v 0 * v 8 + v 3 * v 9), 0, 0, 1,
      2 * (v 0 * v 2 - v 3 * v 1), 2 * (v 1 * v 2 + v 3 * v 0), v 3 ^ 2 - v 0 ^ 2 - v 1 ^ 2 + v 2 ^ 2]

set_option maxHeartbeats 4000000 in
theorem inner10_jacobian (v : Vec ℝ 10) : IsJacobian inner10 v (inner10Jac v) := by
  apply isJacobian_of_partials
  · rw [differentiableAt_pi]
    intro i
    fin_cases i <;> simp [inner10, sandwich, Quat.mul, Quat.conj, Quat.fromVector] <;> fun_prop
  · intro i j
    fin_cases i <;> fin_cases j <;> simp [inner10, sandwich, Quat.mul, Quat.conj, Quat.fromVector, inner10Jac] <;>
    · refine HasDerivAt.congr_deriv (by hasderiv) ?_
      ring

set_option maxHeartbeats 4000000 in
theorem pairJac_jacobian (v : Vec ℝ 10) (hz : inner10 v 2 ≠ 0) : IsJacobian image10 v (pairJac v) := by
  have h := IsJacobian.dehom (inner10_jacobian v) hz
  have e : dehomogenizationJacobian 2 (inner10 v) * inner10Jac v = pairJac v := by
    have t15 : (v 3 * v 3 - v 0 * v 0 - v 1 * v 1 + v 2 * v 2) * v 9 + (v 3 * v 0 * 2 + v 1 * v 2 * 2) * v 8 -
              (v 3 * v 1 * 2 - v 0 * v 2 * 2) * v 7 + v 6 = inner10 v 2 := by
      simp [inner10, sandwich, Quat.mul, Quat.conj, Quat.fromVector]; ring
    have t15' : (v 3 * v 3 - v 0 * v 0 - v 1 * v 1 + v 2 * v 2) * v 9 + (v 3 * v 0 * 2 + v 1 * v 2 * 2) * v 8 + v 6 -
              v 7 * (v 3 * v 1 * 2 - v 0 * v 2 * 2) = inner10 v 2 := by
      simp [inner10, sandwich, Quat.mul, Quat.conj, Quat.fromVector]; ring
    have t22 : (v 3 * v 3 + v 0 * v 0 - v 1 * v 1 - v 2 * v 2) * v 7 + (v 3 * v 1 * 2 + v 0 * v 2 * 2) * v 9 -
              (v 3 * v 2 * 2 - v 0 * v 1 * 2) * v 8 + v 4 = inner10 v 0 := by
      simp [inner10, sandwich, Quat.mul, Quat.conj, Quat.fromVector]; ring
    have t50 : (v 3 * v 3 - v 0 * v 0 + v 1 * v 1 - v 2 * v 2) * v 8 + (v 3 * v 2 * 2 + v 0 * v 1 * 2) * v 7 -
              (v 3 * v 0 * 2 - v 1 * v 2 * 2) * v 9 + v 5 = inner10 v 1 := by
      simp [inner10, sandwich, Quat.mul, Quat.conj, Quat.fromVector]; ring
    have hD : dehomogenizationJacobian 2 (inner10 v) = !![1 / inner10 v 2, 0, -inner10 v 0 * (1 / inner10 v 2 * (1 / inner10 v 2));
        0, 1 / inner10 v 2, -inner10 v 1 * (1 / inner10 v 2 * (1 / inner10 v 2))] := by
      ext i j
      fin_cases i <;> fin_cases j <;> simp [dehomogenizationJacobian, Matrix.one_apply] <;> rfl
    rw [hD]
    ext i j
    rw [Matrix.mul_apply, Fin.sum_univ_three]
    fin_cases i <;> fin_cases j <;>
      simp [pairJac, jacobianStep, setEntry, camIdx, pointIdx, inner10Jac] <;>
      simp only [t15, t15', t22, t50] <;> first | ring1 | (rw [← t22]; ring1) | (rw [← t50]; ring1)
  rw [e] at h
  exact h

/-- Positions of the ten parameters of a camera and a point. -/
def idx10 (c : Fin nc) (p : Fin np) (k : Fin 10) : Fin (nc * 7 + np * 3) :=
  ![camIdx c 0, camIdx c 1, camIdx c 2, camIdx c 3, camIdx c 4, camIdx c 5, camIdx c 6, pointIdx p 0, pointIdx p 1, pointIdx p 2] k

theorem idx10_val (c : Fin nc) (p : Fin np) (k : Fin 10) :
    (idx10 c p k).val = if k.val < 7 then c.val * 7 + k.val else nc * 7 + p.val * 3 + (k.val - 7) := by
  fin_cases k <;> simp [idx10, camIdx, pointIdx]

theorem idx10_injective (c : Fin nc) (p : Fin np) : Function.Injective (idx10 c p) := by
  intro k l h
  have h' := congrArg Fin.val h
  rw [idx10_val, idx10_val] at h'
  apply Fin.ext
  split_ifs at h' <;> omega

def selMat (c : Fin nc) (p : Fin np) : Mat ℝ 10 (nc * 7 + np * 3) := Matrix.of fun k j => if idx10 c p k = j then 1 else 0

theorem sel_jacobian (c : Fin nc) (p : Fin np) (x : Vec ℝ (nc * 7 + np * 3)) :
    IsJacobian (fun x : Vec ℝ (nc * 7 + np * 3) => fun k => x (idx10 c p k)) x (selMat c p) := by
  have e : (fun x : Vec ℝ (nc * 7 + np * 3) => fun k => x (idx10 c p k)) = fun x => (selMat c p).mulVec x + 0 := by
    funext x k
    simp [selMat, Matrix.mulVec, dotProduct]
  rw [e]
  exact IsJacobian.affine _ _ _

set_option maxHeartbeats 4000000 in
theorem jacobianStep_entry (x : Vec ℝ (nc * 7 + np * 3)) (J : Mat ℝ (2 * (nc * np)) (nc * 7 + np * 3)) (i : Fin (nc * np))
    (c : Fin nc) (p : Fin np) (r : Fin (2 * (nc * np))) (hr : r.val / 2 = i.val) (hJ : J r = 0) (k : Fin 10) :
    jacobianStep x J (2 * i.val) c p r (idx10 c p k)
      = pairJac (fun k => x (idx10 c p k)) ⟨r.val % 2, by omega⟩ k := by
  have hne : ∀ a b, a < 7 → ¬ (c.val * 7 + a = nc * 7 + p.val * 3 + b) := by intro a b h; omega
  have hne0 : ∀ a, a < 7 → ¬ (c.val * 7 + a = nc * 7 + p.val * 3) := by intro a h; omega
  have hne' : ∀ a b, a < 7 → ¬ (nc * 7 + p.val * 3 + b = c.val * 7 + a) := by intro a b h; omega
  have hne0' : ∀ a, a < 7 → ¬ (nc * 7 + p.val * 3 = c.val * 7 + a) := by intro a h; omega
  have hne2 : ∀ b, ¬ (c.val * 7 = nc * 7 + p.val * 3 + b) := by intro b; omega
  have hne2' : ∀ b, ¬ (nc * 7 + p.val * 3 + b = c.val * 7) := by intro b; omega
  have hne3 : ¬ (c.val * 7 = nc * 7 + p.val * 3) := by omega
  have hne3' : ¬ (nc * 7 + p.val * 3 = c.val * 7) := by omega
  obtain hr | hr : r.val = 2 * i.val ∨ r.val = 2 * i.val + 1 := by omega
  · have hm : (⟨r.val % 2, by omega⟩ : Fin 2) = 0 := Fin.ext (by simp; omega)
    rw [hm]
    fin_cases k <;>
      simp [jacobianStep, pairJac, setEntry, hr, hne, hne', hne0, hne0', hne2, hne2', hne3, hne3', idx10, camIdx, pointIdx, hJ]
  · have hm : (⟨r.val % 2, by omega⟩ : Fin 2) = 1 := Fin.ext (by simp; omega)
    rw [hm]
    fin_cases k <;>
      simp [jacobianStep, pairJac, setEntry, hr, hne, hne', hne0, hne0', hne2, hne2', hne3, hne3', idx10, camIdx, pointIdx, hJ]

theorem setEntry_other {m n : ℕ} (J : Mat ℝ m n) (r0 c0 : ℕ) (v : ℝ) (r : Fin m) (j : Fin n) (h : r.val ≠ r0 ∨ j.val ≠ c0) :
    setEntry J r0 c0 v r j = J r j := by
  unfold setEntry
  rw [if_neg (by omega)]

theorem jacobianStep_row (x : Vec ℝ (nc * 7 + np * 3)) (J : Mat ℝ (2 * (nc * np)) (nc * 7 + np * 3)) (i : Fin (nc * np))
    (c : Fin nc) (p : Fin np) (r : Fin (2 * (nc * np))) (hr : r.val / 2 ≠ i.val) :
    jacobianStep x J (2 * i.val) c p r = J r := by
  funext j
  unfold jacobianStep
  have h0 : r.val ≠ 2 * i.val := by omega
  have h1 : r.val ≠ 2 * i.val + 1 := by omega
  iterate 9 rw [setEntry_other _ _ _ _ _ _ (Or.inl h1)]
  iterate 9 rw [setEntry_other _ _ _ _ _ _ (Or.inl h0)]

theorem jacobianStep_col (x : Vec ℝ (nc * 7 + np * 3)) (J : Mat ℝ (2 * (nc * np)) (nc * 7 + np * 3)) (row : ℕ)
    (c : Fin nc) (p : Fin np) (r : Fin (2 * (nc * np))) (j : Fin (nc * 7 + np * 3)) (hj : ∀ k, idx10 c p k ≠ j) :
    jacobianStep x J row c p r j = J r j := by
  have hc : ∀ a, a < 7 → j.val ≠ c.val * 7 + a := by
    intro a ha h
    refine hj ⟨a, by omega⟩ (Fin.ext ?_)
    rw [idx10_val, if_pos ha, h]
  have hp : ∀ a, a < 3 → j.val ≠ nc * 7 + p.val * 3 + a := by
    intro a ha h
    refine hj ⟨7 + a, by omega⟩ (Fin.ext ?_)
    rw [idx10_val, if_neg (by simp), h]
    simp
  unfold jacobianStep
  rw [setEntry_other _ _ _ _ _ _ (Or.inr (hp 2 (by norm_num))), setEntry_other _ _ _ _ _ _ (Or.inr (hp 1 (by norm_num))),
    setEntry_other _ _ _ _ _ _ (Or.inr (hp 0 (by norm_num))), setEntry_other _ _ _ _ _ _ (Or.inr (hc 6 (by norm_num))),
    setEntry_other _ _ _ _ _ _ (Or.inr (hc 5 (by norm_num))), setEntry_other _ _ _ _ _ _ (Or.inr (hc 3 (by norm_num))),
    setEntry_other _ _ _ _ _ _ (Or.inr (hc 2 (by norm_num))), setEntry_other _ _ _ _ _ _ (Or.inr (hc 1 (by norm_num))),
    setEntry_other _ _ _ _ _ _ (Or.inr (hc 0 (by norm_num))), setEntry_other _ _ _ _ _ _ (Or.inr (hp 2 (by norm_num))),
    setEntry_other _ _ _ _ _ _ (Or.inr (hp 1 (by norm_num))),
    setEntry_other _ _ _ _ _ _ (Or.inr (hp 0 (by norm_num))), setEntry_other _ _ _ _ _ _ (Or.inr (hc 6 (by norm_num))),
    setEntry_other _ _ _ _ _ _ (Or.inr (hc 4 (by norm_num))), setEntry_other _ _ _ _ _ _ (Or.inr (hc 3 (by norm_num))),
    setEntry_other _ _ _ _ _ _ (Or.inr (hc 2 (by norm_num))), setEntry_other _ _ _ _ _ _ (Or.inr (hc 1 (by norm_num))),
    setEntry_other _ _ _ _ _ _ (Or.inr (hc 0 (by norm_num)))]

theorem evaluateWithJacobian_eq (x : Vec ℝ (nc * 7 + np * 3)) (r0 : Vec ℝ (2 * (nc * np)))
    (J0 : Mat ℝ (2 * (nc * np)) (nc * 7 + np * 3)) :
    evaluateWithJacobian x r0 J0 = (stack2 fun i => dehom ((inputPose x i.divNat).apply (inputPoint x i.modNat)),
      stack2 fun i => pairJac (fun k => x (idx10 i.divNat i.modNat k)) * selMat i.divNat i.modNat) := by
  unfold evaluateWithJacobian
  rw [foldl_nested (f := fun s c p => ((evaluateStep x s.1.1 s.2 c p, jacobianStep x s.1.2 s.2 c p), s.2 + 2)),
    foldl_counter (step := fun s n i => (evaluateStep x s.1 n i.divNat i.modNat, jacobianStep x s.2 n i.divNat i.modNat))]
  have split : ∀ (l : List (Fin (nc * np))) (r : Vec ℝ (2 * (nc * np))) (J : Mat ℝ (2 * (nc * np)) (nc * 7 + np * 3)),
      l.foldl (fun s i => (evaluateStep x s.1 (2 * i.val) i.divNat i.modNat, jacobianStep x s.2 (2 * i.val) i.divNat i.modNat)) (r, J)
      = (l.foldl (fun r i => evaluateStep x r (2 * i.val) i.divNat i.modNat) r,
        l.foldl (fun J i => jacobianStep x J (2 * i.val) i.divNat i.modNat) J) := by
    intro l
    induction l with
    | nil => intro r J; rfl
    | cons a l ih => intro r J; rw [List.foldl_cons, ih]; rfl
  dsimp only
  rw [split]
  congr 1
  · rw [← foldl_setRange _ r0]
    congr 1
    funext r i
    rw [mul_comm i.val 2]
    rfl
  · apply foldl_rows_init (step := fun J i => jacobianStep x J (2 * i.val) i.divNat i.modNat)
    · intro J i r hr hJ
      have hJr := hJ r hr
      funext j
      rw [Matrix.mul_apply]
      by_cases h : ∃ k, idx10 i.divNat i.modNat k = j
      · obtain ⟨k, rfl⟩ := h
        rw [jacobianStep_entry x J i _ _ r hr hJr, Finset.sum_eq_single k]
        · simp [selMat]
        · intro l _ hl
          simp [selMat, (idx10_injective _ _).ne hl]
        · simp
      · push Not at h
        refine (jacobianStep_col x J _ _ _ r j h).trans ?_
        rw [hJr, Finset.sum_eq_zero]
        · rfl
        · intro k _
          simp [selMat, h k]
    · intro J i r hr
      exact jacobianStep_row x J i _ _ r hr

/-- Row of the result for coordinate `k` of point `p` in camera `c`. -/
def row (c : Fin nc) (p : Fin np) (k : Fin 2) : Fin (2 * (nc * np)) := ⟨2 * (c * np + p) + k, by
  have : c.val * np + p.val < nc * np := by
    calc c.val * np + p.val < c.val * np + np := by omega
      _ = (c.val + 1) * np := by ring
      _ ≤ nc * np := Nat.mul_le_mul_right _ c.isLt
  omega⟩

theorem stack2_row {α : Type*} (f : Fin (nc * np) → Fin 2 → α) (c : Fin nc) (p : Fin np) (k : Fin 2)
    (g : Fin nc → Fin np → Fin 2 → α) (h : ∀ i, f i = g i.divNat i.modNat) : stack2 f (row c p k) = g c p k := by
  have hn : 0 < np := lt_of_le_of_lt (Nat.zero_le _) p.isLt
  unfold stack2
  rw [h]
  have h1 : (2 * (c.val * np + p.val) + k.val) / 2 = c.val * np + p.val := by omega
  have h2 : (2 * (c.val * np + p.val) + k.val) % 2 = k.val := by omega
  have e1 : (⟨(row c p k).val / 2, by omega⟩ : Fin (nc * np)).divNat = c := by
    apply Fin.ext
    simp only [Fin.coe_divNat, row, h1]
    rw [Nat.add_comm, Nat.add_mul_div_right _ _ hn, Nat.div_eq_of_lt p.isLt, Nat.zero_add]
  have e2 : (⟨(row c p k).val / 2, by omega⟩ : Fin (nc * np)).modNat = p := by
    apply Fin.ext
    simp only [Fin.coe_modNat, row, h1]
    rw [Nat.add_comm, Nat.add_mul_mod_self_right, Nat.mod_eq_of_lt p.isLt]
  rw [e1, e2]
  congr 1
  exact Fin.ext h2

/-- **C56** The layout of the parameters: whatever the vector held before, parameters `7c .. 7c+6` are the quaternion
(x, y, z, w) and the translation of camera `c`, and parameters `7 nc + 3p ..` are the coordinates of point `p`. -/
theorem C56_layout (u : Vec ℝ (nc * 7 + np * 3)) (poses : Fin nc → Pose ℝ) (pts : Fin np → Vec ℝ 3) :
    (∀ c, cam (paramVector u poses pts) c = ![(poses c).rotation.x, (poses c).rotation.y, (poses c).rotation.z,
      (poses c).rotation.w, (poses c).translation 0, (poses c).translation 1, (poses c).translation 2]) ∧
    ∀ p, pt (paramVector u poses pts) p = pts p := by
  have h1 : ∀ (l : List (Fin nc)) (u : Vec ℝ (nc * 7 + np * 3)) (c : Fin nc) (k : Fin 7),
      l.foldl (fun v (c : Fin nc) => setRange (setRange v (7 * c.val) (poses c).rotation.toVector) (7 * c.val + 4) (poses c).translation) u
        (camIdx c k) = if c ∈ l then
          ![(poses c).rotation.x, (poses c).rotation.y, (poses c).rotation.z, (poses c).rotation.w, (poses c).translation 0,
            (poses c).translation 1, (poses c).translation 2] k else u (camIdx c k) := by
    intro l
    induction l with
    | nil => intro u c k; simp
    | cons a l ih =>
      intro u c k
      rw [List.foldl_cons, ih]
      by_cases hl : c ∈ l
      · simp [hl]
      · by_cases ha : c = a
        · subst ha
          rw [if_neg hl, if_pos List.mem_cons_self]
          by_cases hk : k.val < 4
          · rw [setRange_out _ _ _ _ (by simp only [camIdx]; omega),
              setRange_in _ _ _ _ ⟨k.val, hk⟩ (by simp only [camIdx]; omega)]
            fin_cases k <;> first | rfl | (simp at hk)
          · rw [setRange_in _ _ _ _ ⟨k.val - 4, by omega⟩ (by simp only [camIdx]; omega)]
            fin_cases k <;> first | rfl | (simp at hk)
        · rw [if_neg hl, if_neg (by simp [hl, ha])]
          have : c.val ≠ a.val := fun h => ha (Fin.ext h)
          rw [setRange_out _ _ _ _ (by simp only [camIdx]; omega), setRange_out _ _ _ _ (by simp only [camIdx]; omega)]
  have h2 : ∀ (l : List (Fin np)) (u : Vec ℝ (nc * 7 + np * 3)) (j : Fin (nc * 7 + np * 3)), j.val < nc * 7 →
      l.foldl (fun v (p : Fin np) => setRange v (nc * 7 + 3 * p.val) (pts p)) u j = u j := by
    intro l
    induction l with
    | nil => intro u j _; rfl
    | cons a l ih =>
      intro u j hj
      rw [List.foldl_cons, ih _ _ hj, setRange_out _ _ _ _ (by omega)]
  have h3 : ∀ (l : List (Fin np)) (u : Vec ℝ (nc * 7 + np * 3)) (p : Fin np) (k : Fin 3),
      l.foldl (fun v (p : Fin np) => setRange v (nc * 7 + 3 * p.val) (pts p)) u (pointIdx p k)
        = if p ∈ l then pts p k else u (pointIdx p k) := by
    intro l
    induction l with
    | nil => intro u p k; simp
    | cons a l ih =>
      intro u p k
      rw [List.foldl_cons, ih]
      by_cases hl : p ∈ l
      · simp [hl]
      · by_cases ha : p = a
        · subst ha
          rw [if_neg hl, if_pos List.mem_cons_self, setRange_in _ _ _ _ k (by simp only [pointIdx]; omega)]
        · rw [if_neg hl, if_neg (by simp [hl, ha])]
          have : p.val ≠ a.val := fun h => ha (Fin.ext h)
          rw [setRange_out _ _ _ _ (by simp only [pointIdx]; omega)]
  constructor
  · intro c
    funext k
    have e : cam (paramVector u poses pts) c k = paramVector u poses pts (camIdx c k) := rfl
    rw [e, paramVector, h2 _ _ _ (by simp only [camIdx]; omega), h1, if_pos (List.mem_finRange _)]
  · intro p
    funext k
    have e : pt (paramVector u poses pts) p k = paramVector u poses pts (pointIdx p k) := rfl
    rw [e, paramVector, h3, if_pos (List.mem_finRange _)]

theorem inputPose_cam (x : Vec ℝ (nc * 7 + np * 3)) (c : Fin nc) :
    inputPose x c = ⟨⟨cam x c 0, cam x c 1, cam x c 2, cam x c 3⟩, ![cam x c 4, cam x c 5, cam x c 6]⟩ := rfl

theorem inputPoint_pt (x : Vec ℝ (nc * 7 + np * 3)) (p : Fin np) : inputPoint x p = pt x p := by
  funext k; fin_cases k <;> rfl

/-- **C56** Evaluated at the parameters of any poses and points, rows `2 (c np + p)` and `2 (c np + p) + 1` of the result are
the image of point `p` in camera `c`. -/
theorem C56_evaluate (u : Vec ℝ (nc * 7 + np * 3)) (poses : Fin nc → Pose ℝ) (pts : Fin np → Vec ℝ 3)
    (r0 : Vec ℝ (2 * (nc * np))) (J0 : Mat ℝ (2 * (nc * np)) (nc * 7 + np * 3)) (c : Fin nc) (p : Fin np) (k : Fin 2) :
    (evaluateWithJacobian (paramVector u poses pts) r0 J0).1 (row c p k) = dehom ((poses c).apply (pts p)) k := by
  rw [evaluateWithJacobian_eq]
  refine (stack2_row _ c p k (fun c p => dehom ((inputPose (paramVector u poses pts) c).apply
    (inputPoint (paramVector u poses pts) p))) (fun _ => rfl)).trans ?_
  obtain ⟨h1, h2⟩ := C56_layout u poses pts
  rw [inputPose_cam, inputPoint_pt, h1, h2]
  congr 2
  have : (poses c).translation = ![(poses c).translation 0, (poses c).translation 1, (poses c).translation 2] := by
    funext k; fin_cases k <;> rfl
  simp only [Matrix.cons_val]
  rw [← this]

/-- The image of all points in all cameras, as the result vector. -/
noncomputable def images (x : Vec ℝ (nc * 7 + np * 3)) : Vec ℝ (2 * (nc * np)) := stack2 fun i => image x i.divNat i.modNat

/-- **C56** The matrix is the Jacobian of the images with respect to all parameters, whatever the matrix held before. In
particular the entries of a point or camera that a row does not depend on are zero. -/
theorem C56_jacobian (x : Vec ℝ (nc * 7 + np * 3)) (r0 : Vec ℝ (2 * (nc * np))) (J0 : Mat ℝ (2 * (nc * np)) (nc * 7 + np * 3))
    (hz : ∀ c p, (sandwich ![cam x c 0, cam x c 1, cam x c 2, cam x c 3] (pt x p) + ![cam x c 4, cam x c 5, cam x c 6]) 2 ≠ 0) :
    IsJacobian (images (nc := nc) (np := np)) x (evaluateWithJacobian x r0 J0).2 := by
  rw [evaluateWithJacobian_eq]
  refine IsJacobian.stack2 (f := fun i x => image x i.divNat i.modNat)
    (J := fun i => (pairJac fun k => x (idx10 i.divNat i.modNat k)) * selMat i.divNat i.modNat) ?_
  intro i
  have h := IsJacobian.comp (pairJac_jacobian (fun k => x (idx10 i.divNat i.modNat k)) ?_) (sel_jacobian i.divNat i.modNat x)
  · refine cast ?_ h
    congr 1
  · have := hz i.divNat i.modNat
    refine fun h => this ?_
    rw [← h]
    unfold inner10
    have : ![x (idx10 i.divNat i.modNat 7), x (idx10 i.divNat i.modNat 8), x (idx10 i.divNat i.modNat 9)] = pt x i.modNat := by
      funext k
      fin_cases k <;> rfl
    rw [this]
    rfl

/-- **C56** At cameras with unit quaternions the images of the Jacobian theorem are those the function returns. -/
theorem C56_unit (x : Vec ℝ (nc * 7 + np * 3)) (r0 : Vec ℝ (2 * (nc * np))) (J0 : Mat ℝ (2 * (nc * np)) (nc * 7 + np * 3))
    (hu : ∀ c, cam x c 0 ^ 2 + cam x c 1 ^ 2 + cam x c 2 ^ 2 + cam x c 3 ^ 2 = 1) :
    (evaluateWithJacobian x r0 J0).1 = images x := by
  rw [evaluateWithJacobian_eq]
  dsimp only
  unfold images
  congr 1
  funext i
  rw [inputPose_cam, inputPoint_pt, image]
  congr 1
  unfold Pose.apply
  congr 1
  have := hu i.divNat
  ext k
  fin_cases k <;> simp [Quat.rotate, sandwich, Quat.mul, Quat.conj, Quat.fromVector] <;> grind

theorem observationVector_eq (L : List (List (Vec ℝ 2))) :
    observationVector L = L.flatten.flatMap fun pt2D => [pt2D 0, pt2D 1] := by
  have h1 : ∀ (l : List (Vec ℝ 2)) (v : List ℝ), l.foldl (fun v pt2D => v ++ [pt2D 0, pt2D 1]) v
      = v ++ l.flatMap fun pt2D => [pt2D 0, pt2D 1] := by
    intro l
    induction l with
    | nil => simp
    | cons a l ih => intro v; rw [List.foldl_cons, ih]; simp
  have h2 : ∀ (L : List (List (Vec ℝ 2))) (v : List ℝ),
      L.foldl (fun v cam => cam.foldl (fun v pt2D => v ++ [pt2D 0, pt2D 1]) v) v
      = v ++ L.flatten.flatMap fun pt2D => [pt2D 0, pt2D 1] := by
    intro L
    induction L with
    | nil => simp
    | cons a L ih => intro v; rw [List.foldl_cons, ih, h1]; simp
  rw [observationVector, h2, List.nil_append]

/-- **C56** The observations: if every camera has `np` observations, element `2 (c np + p) + k` of the measurement is coordinate
`k` of observation `p` of camera `c`: residuals compare each observation with the image of its own point in its own camera. -/
theorem C56_observations (obs : Fin nc → Fin np → Vec ℝ 2) :
    (observationVector ((List.finRange nc).map fun c => (List.finRange np).map (obs c))).length = 2 * (nc * np) ∧
    ∀ c p k, (observationVector ((List.finRange nc).map fun c => (List.finRange np).map (obs c)))[(row c p k).val]? = some (obs c p k) := by
  have key : observationVector ((List.finRange nc).map fun c => (List.finRange np).map (obs c))
      = List.ofFn (n := 2 * (nc * np)) (stack2 fun i => obs i.divNat i.modNat) := by
    rw [observationVector_eq, List.ofFn_mul']
    have e : ((List.finRange nc).map fun c => (List.finRange np).map (obs c)).flatten
        = List.ofFn (n := nc * np) fun i => obs i.divNat i.modNat := by
      rw [List.ofFn_mul, ← List.ofFn_eq_map]
      congr 2
      funext i
      rw [← List.ofFn_eq_map]
      congr 1
      funext j
      have hn : 0 < np := lt_of_le_of_lt (Nat.zero_le _) j.isLt
      have e1 : ∀ h, (⟨i.val * np + j.val, h⟩ : Fin (nc * np)).divNat = i := by
        intro h
        apply Fin.ext
        simp only [Fin.coe_divNat]
        rw [Nat.add_comm, Nat.add_mul_div_right _ _ hn, Nat.div_eq_of_lt j.isLt, Nat.zero_add]
      have e2 : ∀ h, (⟨i.val * np + j.val, h⟩ : Fin (nc * np)).modNat = j := by
        intro h
        apply Fin.ext
        simp only [Fin.coe_modNat]
        rw [Nat.add_comm, Nat.add_mul_mod_self_right, Nat.mod_eq_of_lt j.isLt]
      rw [e1, e2]
    rw [e, List.flatMap_def, List.map_ofFn]
    congr 2
    funext i
    have e0 : ∀ (j : Fin 2) h, stack2 (fun i : Fin (nc * np) => obs i.divNat i.modNat) ⟨2 * i.val + j.val, h⟩
        = obs i.divNat i.modNat j := by
      intro j h
      unfold stack2
      have a1 : ∀ h, (⟨(2 * i.val + j.val) / 2, h⟩ : Fin (nc * np)) = i := fun h => Fin.ext (by simp; omega)
      have a2 : ∀ h, (⟨(2 * i.val + j.val) % 2, h⟩ : Fin 2) = j := fun h => Fin.ext (by simp; omega)
      simp only [a1, a2]
    simp only [e0]
    simp
  rw [key]
  refine ⟨List.length_ofFn, ?_⟩
  intro c p k
  rw [List.getElem?_ofFn, dif_pos (row c p k).isLt]
  exact congrArg some (stack2_row _ c p k obs (fun _ => rfl))

/-- If the cameras have different numbers of observations, the observations are compared with the wrong cameras even though
their total number is right: with no observation in camera 0 and two in camera 1, the second observation of camera 1 takes
the place of the first. -/
theorem C56_ragged_refuted :
    ¬ ∀ (obs : List (List (Vec ℝ 2))) (c : Fin 2), obs.length = 2 → (observationVector obs).length = 2 * (2 * 1) →
      ∀ k : Fin 2, ∀ o ∈ (obs[c.val]?.getD [])[0]?, (observationVector obs)[(row (np := 1) c 0 k).val]? = some (o k) := by
  intro h
  have := h [[], [![1, 1], ![2, 2]]] 1 rfl (by rw [observationVector_eq]; simp) 0 ![1, 1] (by simp)
  rw [observationVector_eq] at this
  simp [row] at this

/-- **C56** Writing the parameters of poses with unit quaternions back restores the poses and points. -/
theorem C56_writeBack (u : Vec ℝ (nc * 7 + np * 3)) (poses : Fin nc → Pose ℝ) (pts : Fin np → Vec ℝ 3)
    (hu : ∀ c, UnitQ (poses c).rotation) : writeBack (paramVector u poses pts) = (poses, pts) := by
  obtain ⟨h1, h2⟩ := C56_layout u poses pts
  unfold writeBack
  refine Prod.ext ?_ ?_
  · funext c
    have e : ∀ k, paramVector u poses pts (camIdx c k) = cam (paramVector u poses pts) c k := fun _ => rfl
    simp only [e, h1]
    have t : ![(poses c).translation 0, (poses c).translation 1, (poses c).translation 2] = (poses c).translation := by
      funext k; fin_cases k <;> rfl
    have q : (Quat.fromVector ![(poses c).rotation.x, (poses c).rotation.y, (poses c).rotation.z, (poses c).rotation.w])
      = (poses c).rotation := rfl
    have := Quat.normalize_unit (hu c)
    simp
    rw [q, this, t]
  · funext p
    exact (inputPoint_pt _ p).trans (h2 p)

/-- **C56** Whatever the optimiser returns, the poses written back have unit quaternions unless a quaternion became zero. -/
theorem C56_writeBack_unit (x : Vec ℝ (nc * 7 + np * 3)) (c : Fin nc) (h : ∃ k : Fin 4, cam x c ⟨k, by omega⟩ ≠ 0) :
    UnitQ ((writeBack x).1 c).rotation := by
  unfold writeBack
  apply Quat.unit_normalize
  intro h0
  obtain ⟨k, hk⟩ := h
  apply hk
  have h0' : cam x c 0 * cam x c 0 + cam x c 1 * cam x c 1 + cam x c 2 * cam x c 2 + cam x c 3 * cam x c 3 = 0 := by
    have e : ∀ k, x (camIdx c k) = cam x c k := fun _ => rfl
    simp only [e, Quat.normSq, Quat.fromVector, Matrix.cons_val] at h0
    linarith
  fin_cases k
  all_goals
    simp
    nlinarith [mul_self_nonneg (cam x c 0), mul_self_nonneg (cam x c 1), mul_self_nonneg (cam x c 2), mul_self_nonneg (cam x c 3)]

/-- A case that meets the hypotheses: two cameras, one translated by one, one point in front of both. -/
example : let x := paramVector (K := ℝ) (n_cams := 2) (n_pts3D := 1) 0 ![⟨⟨0, 0, 0, 1⟩, 0⟩, ⟨⟨0, 0, 0, 1⟩, ![1, 0, 0]⟩] ![![0, 1, 2]]
    ∀ c p, (sandwich ![cam x c 0, cam x c 1, cam x c 2, cam x c 3] (pt x p) + ![cam x c 4, cam x c 5, cam x c 6]) 2 ≠ 0 := by
  intro x c p
  obtain ⟨h1, h2⟩ := C56_layout (nc := 2) (np := 1) 0 ![⟨⟨0, 0, 0, 1⟩, 0⟩, ⟨⟨0, 0, 0, 1⟩, ![1, 0, 0]⟩] ![![0, 1, 2]]
  simp only [x, h1, h2]
  fin_cases c <;> fin_cases p <;> simp [sandwich, Quat.mul, Quat.conj, Quat.fromVector]

end Ubitrack.BundleAdjustment
