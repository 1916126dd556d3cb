import Verif.Model.ToolTip
import Verif.Spec.Alignment
import Verif.Proofs.LeastSquares
import Verif.Props.AbsoluteOrientation
import Verif.Props.LevenbergMarquardt
import Verif.Props.Ransac

/-!
# C39: tool tip calibration
-/

namespace Ubitrack
open Ubitrack.Spec Ubitrack.Quat Ubitrack.ToolTip
open scoped Matrix

namespace Spec

/-- How far the poses are from all mapping the offset `pm` to the tip `pw`: the sum of the squared
distances. -/
def tipError (poses : List (Pose ℝ)) (pw pm : Vec ℝ 3) : ℝ :=
  (poses.map fun p => lenSq (pw - p.apply pm)).sum

/-- All poses have unit quaternions. -/
def UnitPoses (poses : List (Pose ℝ)) : Prop := ∀ p ∈ poses, UnitQ p.rotation

/-- No direction is rotated the same way by all poses. -/
def NoCommonAxis (poses : List (Pose ℝ)) : Prop :=
  ∀ v : Vec ℝ 3, (∀ p ∈ poses, ∀ q ∈ poses, p.rotation.rotate v = q.rotation.rotate v) → v = 0

end Spec

namespace ToolTip

/-- Parameters in the order of the linear system: offset first. -/
def join (pm pw : Vec ℝ 3) : Vec ℝ 6 := ![pm 0, pm 1, pm 2, pw 0, pw 1, pw 2]

theorem join_eta (v : Vec ℝ 6) : join ![v 0, v 1, v 2] ![v 3, v 4, v 5] = v := by
  ext i; fin_cases i <;> rfl

theorem poseRows_error (p : Pose ℝ) (hp : UnitQ p.rotation) (pw pm : Vec ℝ 3) :
    systemError (poseRows p) (join pm pw) = lenSq (pw - p.apply pm) := by
  have h := (C03_quaternion_to_matrix _ hp).1 pm
  have h0 := congrFun h 0
  have h1 := congrFun h 1
  have h2 := congrFun h 2
  simp only [Matrix.mulVec, dotProduct, Fin.sum_univ_three] at h0 h1 h2
  simp [systemError, poseRows, join, dotProduct, Fin.sum_univ_six, lenSq, Pose.apply, ← h0, ← h1, ← h2]
  ring

theorem system_error (poses : List (Pose ℝ)) (hp : UnitPoses poses) (pw pm : Vec ℝ 3) :
    systemError (system poses) (join pm pw) = tipError poses pw pm := by
  induction poses with
  | nil => simp [system, systemError, tipError]
  | cons p ps ih =>
    have h1 := poseRows_error p (hp p (by simp)) pw pm
    have h2 := ih (fun q hq => hp q (by simp [hq]))
    simp only [systemError, system, tipError] at h1 h2 ⊢
    rw [List.flatMap_cons, List.map_append, List.sum_append, h1, h2, List.map_cons, List.sum_cons]

theorem tipError_nonneg (poses : List (Pose ℝ)) (pw pm : Vec ℝ 3) : 0 ≤ tipError poses pw pm := by
  apply List.sum_nonneg
  intro y hy
  obtain ⟨r, _, rfl⟩ := List.mem_map.mp hy
  exact AbsoluteOrientation.lenSq_nonneg _

theorem tipError_eq_zero (poses : List (Pose ℝ)) (pw pm : Vec ℝ 3) :
    tipError poses pw pm = 0 ↔ ∀ p ∈ poses, p.apply pm = pw := by
  have hnn : ∀ y ∈ poses.map fun p => lenSq (pw - p.apply pm), 0 ≤ y := by
    intro y hy
    obtain ⟨r, _, rfl⟩ := List.mem_map.mp hy
    exact AbsoluteOrientation.lenSq_nonneg _
  constructor
  · intro h p hp
    have := List.all_zero_of_le_zero_le_of_sum_eq_zero hnn h (List.mem_map.mpr ⟨p, hp, rfl⟩)
    exact (sub_eq_zero.mp (AbsoluteOrientation.eq_zero_of_lenSq _ this)).symm
  · intro h
    apply List.sum_eq_zero
    intro y hy
    obtain ⟨r, hr, rfl⟩ := List.mem_map.mp hy
    simp [h r hr, lenSq]

theorem estimate_some {gels : List (Vec ℝ 6 × ℝ) → Option (Vec ℝ 6)} {poses : List (Pose ℝ)}
    {pw pm : Vec ℝ 3} (h : estimate gels poses = some (pw, pm)) :
    gels (system poses) = some (join pm pw) := by
  unfold estimate at h
  split at h
  · simp at h
  · rename_i v hv
    simp only [Option.some.injEq, Prod.mk.injEq] at h
    rw [hv, ← h.1, ← h.2, join_eta]

theorem norm3_eq (v : Vec ℝ 3) : Quat.norm3 v = Real.sqrt (lenSq v) := by
  rw [Quat.norm3, lenSq]; ring_nf

end ToolTip

variable {gels : List (Vec ℝ 6 × ℝ) → Option (Vec ℝ 6)}

/-- **C39** The squared residual of the assembled linear system is the sum of the squared distances
between the tip and the moved offsets, and it is zero exactly when every pose maps the offset to the
tip. -/
theorem C39_system (poses : List (Pose ℝ)) (hp : UnitPoses poses) (pw pm : Vec ℝ 3) :
    systemError (system poses) ![pm 0, pm 1, pm 2, pw 0, pw 1, pw 2] = tipError poses pw pm ∧
    ((∀ r ∈ system poses, r.1 ⬝ᵥ ![pm 0, pm 1, pm 2, pw 0, pw 1, pw 2] = r.2) ↔
      ∀ p ∈ poses, p.apply pm = pw) := by
  have h := system_error poses hp pw pm
  refine ⟨h, ?_⟩
  rw [← tipError_eq_zero, ← h, ← systemError_eq_zero]; rfl

/-- **C39** The calibration result minimises the sum of squared distances among all pairs of tip and
offset. -/
theorem C39_optimal (hg : LeastSquaresSolver gels) (poses : List (Pose ℝ)) (hp : UnitPoses poses)
    (pw pm : Vec ℝ 3) (h : estimate gels poses = some (pw, pm)) (pw' pm' : Vec ℝ 3) :
    tipError poses pw pm ≤ tipError poses pw' pm' := by
  rw [← system_error poses hp, ← system_error poses hp]
  exact hg _ _ (estimate_some h) _

/-- **C39** Noise-free data: if every pose maps one offset to one tip, the result has this property. -/
theorem C39_exact (hg : LeastSquaresSolver gels) (poses : List (Pose ℝ)) (hp : UnitPoses poses)
    (pw pm : Vec ℝ 3) (h : estimate gels poses = some (pw, pm)) (pw' pm' : Vec ℝ 3)
    (htrue : ∀ p ∈ poses, p.apply pm' = pw') : ∀ p ∈ poses, p.apply pm = pw := by
  rw [← tipError_eq_zero] at htrue ⊢
  exact le_antisymm (htrue ▸ C39_optimal hg poses hp pw pm h pw' pm') (tipError_nonneg _ _ _)

/-- **C39** The system has independent columns exactly when there is at least one pose and no direction
is rotated the same way by all poses. -/
theorem C39_full_rank (poses : List (Pose ℝ)) (hp : UnitPoses poses) :
    FullRank (system poses) ↔ poses ≠ [] ∧ NoCommonAxis poses := by
  have hrow : ∀ (pm pw : Vec ℝ 3), (∀ r ∈ system poses, r.1 ⬝ᵥ join pm pw = 0) ↔
      ∀ p ∈ poses, p.rotation.rotate pm = pw := by
    intro pm pw
    simp only [system, List.mem_flatMap]
    constructor
    · intro h p hpp
      have hr : ∀ r ∈ poseRows p, r.1 ⬝ᵥ join pm pw = 0 := fun r hr => h r ⟨p, hpp, hr⟩
      simp only [poseRows, List.forall_mem_cons] at hr
      obtain ⟨e0, e1, e2, -⟩ := hr
      have hm := (C03_quaternion_to_matrix _ (hp p hpp)).1 pm
      rw [← hm]
      simp [join, dotProduct, Fin.sum_univ_six] at e0 e1 e2
      ext i
      fin_cases i <;> simp [Matrix.mulVec, dotProduct, Fin.sum_univ_three] <;> linarith
    · rintro h r ⟨p, hpp, hr⟩
      have hm := (C03_quaternion_to_matrix _ (hp p hpp)).1 pm
      rw [h p hpp] at hm
      have h0 := congrFun hm 0
      have h1 := congrFun hm 1
      have h2 := congrFun hm 2
      simp only [Matrix.mulVec, dotProduct, Fin.sum_univ_three] at h0 h1 h2
      simp only [poseRows, List.mem_cons, List.not_mem_nil, or_false] at hr
      rcases hr with rfl | rfl | rfl <;> simp [join, dotProduct, Fin.sum_univ_six] <;> linarith
  constructor
  · intro h
    constructor
    · rintro rfl
      have := congrFun (h ![1, 0, 0, 0, 0, 0] (by simp [system])) 0
      simp at this
    · intro v hv
      cases poses with
      | nil =>
        have := h ![1, 0, 0, 0, 0, 0] (by simp [system])
        have := congrFun this 0
        simp at this
      | cons p ps =>
        have hz := h (join v (p.rotation.rotate v)) ((hrow _ _).mpr fun q hq => (hv p (by simp) q hq).symm)
        ext i
        have e0 := congrFun hz 0
        have e1 := congrFun hz 1
        have e2 := congrFun hz 2
        simp [join] at e0 e1 e2
        fin_cases i <;> simpa
  · rintro ⟨hne, hax⟩ x hx
    obtain ⟨pm, pw, rfl⟩ : ∃ pm pw, x = join pm pw := ⟨_, _, (join_eta x).symm⟩
    have h := (hrow pm pw).mp hx
    have hpm : pm = 0 := hax pm fun p hp q hq => by rw [h p hp, h q hq]
    obtain ⟨p, hpp⟩ := List.exists_mem_of_ne_nil _ hne
    have hpw : pw = 0 := by
      rw [← h p hpp, hpm, ← (C03_quaternion_to_matrix _ (hp p hpp)).1, Matrix.mulVec_zero]
    rw [hpm, hpw]
    ext i; fin_cases i <;> rfl

/-- **C39** With poses that have no common axis, the calibration succeeds; on noise-free data it returns
the true tip and the true offset. -/
theorem C39_unique (hg : LeastSquaresSolver gels) (hs : SucceedsOnFullRank gels) (poses : List (Pose ℝ))
    (hp : UnitPoses poses) (hne : poses ≠ []) (hax : NoCommonAxis poses) :
    (∃ r, estimate gels poses = some r) ∧
    ∀ pw' pm' : Vec ℝ 3, (∀ p ∈ poses, p.apply pm' = pw') → estimate gels poses = some (pw', pm') := by
  obtain ⟨v, hv⟩ := hs _ ((C39_full_rank poses hp).mpr ⟨hne, hax⟩)
  have hr : estimate gels poses = some (![v 3, v 4, v 5], ![v 0, v 1, v 2]) := by
    simp [estimate, hv]
  refine ⟨⟨_, hr⟩, fun pw' pm' htrue => ?_⟩
  have hex := C39_exact hg poses hp _ _ hr pw' pm' htrue
  obtain ⟨pw, hpw⟩ : ∃ pw : Vec ℝ 3, pw = ![v 3, v 4, v 5] := ⟨_, rfl⟩
  obtain ⟨pm, hpm⟩ : ∃ pm : Vec ℝ 3, pm = ![v 0, v 1, v 2] := ⟨_, rfl⟩
  rw [← hpw, ← hpm] at hr hex
  have hdiff : pm - pm' = 0 := by
    apply hax
    have hrot : ∀ p ∈ poses, p.rotation.rotate (pm - pm') = pw - pw' := by
      intro p hpp
      have e1 := hex p hpp
      have e2 := htrue p hpp
      simp only [Pose.apply] at e1 e2
      rw [← (C03_quaternion_to_matrix _ (hp p hpp)).1, Matrix.mulVec_sub,
        (C03_quaternion_to_matrix _ (hp p hpp)).1, (C03_quaternion_to_matrix _ (hp p hpp)).1, ← e1, ← e2]
      abel
    intro p hpp q hq
    rw [hrot p hpp, hrot q hq]
  have hm : pm = pm' := sub_eq_zero.mp hdiff
  obtain ⟨p, hpp⟩ := List.exists_mem_of_ne_nil _ hne
  have hw : pw = pw' := by rw [← hex p hpp, ← htrue p hpp, hm]
  rw [hr, hm, hw]

/-- **C39** The reported error is the mean of the distances with the sample standard deviation; it is
(0, 0) exactly when every pose maps the offset to the tip. -/
theorem C39_error (pw pm : Vec ℝ 3) (poses : List (Pose ℝ)) (hn : 2 ≤ poses.length) :
    let d : List ℝ := poses.map fun p => Real.sqrt (lenSq (pw - p.apply pm))
    let μ : ℝ := d.sum / d.length
    estimateError pw pm poses =
      some (μ, Real.sqrt ((d.map fun x => (x - μ) ^ 2).sum / (d.length - 1))) ∧
    (estimateError pw pm poses = some (0, 0) ↔ ∀ p ∈ poses, p.apply pm = pw) := by
  dsimp only
  have hf1 : ∀ (l : List ℝ) (a : ℝ), l.foldl (fun s d => s + d) a = a + l.sum := by
    intro l
    induction l with
    | nil => simp
    | cons x xs ih => intro a; rw [List.foldl_cons, ih, List.sum_cons, add_assoc]
  have hf2 : ∀ (μ : ℝ) (l : List ℝ) (a : ℝ), l.foldl (fun s d => s + (d - μ) ^ 2) a =
      a + (l.map fun x => (x - μ) ^ 2).sum := by
    intro μ l
    induction l with
    | nil => simp
    | cons x xs ih => intro a; rw [List.foldl_cons, ih, List.map_cons, List.sum_cons, add_assoc]
  have hcast : ((poses.length - 1 : ℕ) : ℝ) = (poses.length : ℝ) - 1 := by
    rw [Nat.cast_sub (by omega)]; simp
  have h1 : estimateError pw pm poses =
      some ((poses.map fun p => Real.sqrt (lenSq (pw - p.apply pm))).sum /
          (poses.map fun p => Real.sqrt (lenSq (pw - p.apply pm))).length,
        Real.sqrt (((poses.map fun p => Real.sqrt (lenSq (pw - p.apply pm))).map fun x =>
          (x - (poses.map fun p => Real.sqrt (lenSq (pw - p.apply pm))).sum /
          (poses.map fun p => Real.sqrt (lenSq (pw - p.apply pm))).length) ^ 2).sum /
          ((poses.map fun p => Real.sqrt (lenSq (pw - p.apply pm))).length - 1))) := by
    unfold estimateError
    dsimp only
    have hd : poses.map (distance pw pm) = poses.map fun p => Real.sqrt (lenSq (pw - p.apply pm)) := by
      apply List.map_congr_left; intro p _; exact norm3_eq _
    rw [if_neg (by omega), hf1, hf2, zero_add, zero_add, hcast, hd, List.length_map]
  refine ⟨h1, ?_⟩
  rw [h1]
  simp only [Option.some.injEq, Prod.mk.injEq, List.length_map]
  have hn0 : (poses.length : ℝ) ≠ 0 := by
    have : poses.length ≠ 0 := by omega
    exact_mod_cast this
  have hnn : ∀ x ∈ poses.map fun p => Real.sqrt (lenSq (pw - p.apply pm)), 0 ≤ x := by
    intro x hx; obtain ⟨y, _, rfl⟩ := List.mem_map.mp hx; exact Real.sqrt_nonneg _
  constructor
  · rintro ⟨h, -⟩ p hp
    have hz := (div_eq_zero_iff.mp h).resolve_right hn0
    have := List.all_zero_of_le_zero_le_of_sum_eq_zero hnn hz (List.mem_map.mpr ⟨p, hp, rfl⟩)
    rw [Real.sqrt_eq_zero (AbsoluteOrientation.lenSq_nonneg _)] at this
    exact (sub_eq_zero.mp (AbsoluteOrientation.eq_zero_of_lenSq _ this)).symm
  · intro h
    have hzero : ∀ x ∈ poses.map fun p => Real.sqrt (lenSq (pw - p.apply pm)), x = 0 := by
      intro x hx; obtain ⟨p, hp, rfl⟩ := List.mem_map.mp hx
      simp [h p hp, lenSq]
    have hs : (poses.map fun p => Real.sqrt (lenSq (pw - p.apply pm))).sum = 0 := List.sum_eq_zero hzero
    rw [hs, zero_div]
    refine ⟨rfl, ?_⟩
    have : ((poses.map fun p => Real.sqrt (lenSq (pw - p.apply pm))).map fun x => (x - 0) ^ 2).sum = 0 := by
      apply List.sum_eq_zero
      intro x hx
      obtain ⟨y, hy, rfl⟩ := List.mem_map.mp hx
      rw [hzero y hy]; ring
    rw [this, zero_div, Real.sqrt_zero]

/-- **C39** The refinement by non-linear optimisation minimises the same sum of squares, so its result has
exactly the error of the linear solution, which is already the smallest possible. -/
theorem C39_refinement (hg : LeastSquaresSolver gels) (poses : List (Pose ℝ)) (hp : UnitPoses poses)
    (jac : Vec ℝ 6 → Mat ℝ poses.length 6) (terminate : ℕ → ℝ → ℝ → Bool) (solver : LM.Solver)
    (stepSize stepFactor : ℝ) (lapack : LM.Lapack 6) (fuel : ℕ) (pw pm : Vec ℝ 3)
    (h : estimateOptimized gels poses jac terminate solver stepSize stepFactor lapack fuel = some (pw, pm)) :
    ∃ pw0 pm0, estimate gels poses = some (pw0, pm0) ∧ tipError poses pw pm = tipError poses pw0 pm0 ∧
      ∀ pw' pm', tipError poses pw pm ≤ tipError poses pw' pm' := by
  unfold estimateOptimized at h
  split at h
  · simp at h
  · rename_i pw0 pm0 h0
    dsimp only at h
    split at h
    · rename_i x r hlm
      simp only [Option.some.injEq, Prod.mk.injEq] at h
      have hres := (LM.C23_result _ (by intro d i; simp [LM.weights]) _ _ _ _ hlm)
      have hcost : ∀ (c : LM.Call 6 poses.length) (y : Vec ℝ 6), c.weight = none → c.measurement = 0 →
          (∀ y, (c.problem y).1 = evaluate poses y) →
          c.residual y = tipError poses ![y 0, y 1, y 2] ![y 3, y 4, y 5] := by
        intro c y hw hm hpr
        simp only [LM.Call.residual, LM.residual, LM.Call.predict, hw, hm, hpr, LM.weights, tipError]
        have : ∀ i : Fin poses.length,
            1 * ((0 : Vec ℝ poses.length) i - evaluate poses y i) ^ 2 =
            lenSq (![y 0, y 1, y 2] - (poses.get i).apply ![y 3, y 4, y 5]) := by
          intro i
          simp only [evaluate, norm3_eq, Pi.zero_apply, one_mul, zero_sub, neg_sq]
          exact Real.sq_sqrt (AbsoluteOrientation.lenSq_nonneg _)
        rw [Finset.sum_congr rfl fun i _ => this i]
        rw [← Fin.sum_univ_fun_getElem]
        rfl
      have hle := hres.2
      rw [hres.1, hcost _ _ rfl rfl (fun _ => rfl), hcost _ _ rfl rfl (fun _ => rfl), h.1, h.2] at hle
      have e1 : (![(![pw0 0, pw0 1, pw0 2, pm0 0, pm0 1, pm0 2] : Vec ℝ 6) 0,
          (![pw0 0, pw0 1, pw0 2, pm0 0, pm0 1, pm0 2] : Vec ℝ 6) 1,
          (![pw0 0, pw0 1, pw0 2, pm0 0, pm0 1, pm0 2] : Vec ℝ 6) 2] : Vec ℝ 3) = pw0 := by
        ext i; fin_cases i <;> rfl
      have e2 : (![(![pw0 0, pw0 1, pw0 2, pm0 0, pm0 1, pm0 2] : Vec ℝ 6) 3,
          (![pw0 0, pw0 1, pw0 2, pm0 0, pm0 1, pm0 2] : Vec ℝ 6) 4,
          (![pw0 0, pw0 1, pw0 2, pm0 0, pm0 1, pm0 2] : Vec ℝ 6) 5] : Vec ℝ 3) = pm0 := by
        ext i; fin_cases i <;> rfl
      rw [e1, e2] at hle
      have hopt := C39_optimal hg poses hp pw0 pm0 h0
      exact ⟨pw0, pm0, h0, le_antisymm hle (hopt pw pm), fun pw' pm' => hle.trans (hopt pw' pm')⟩
    · simp at h

/-- **C39** A successful robust calibration: the poses within the threshold of some hypothesis are at least
the required number, and if the final estimate on them succeeds, the result minimises the sum of squared
distances over exactly these poses. -/
theorem C39_ransac (hg : LeastSquaresSolver gels) (poses : List (Pose ℝ)) (hp : UnitPoses poses)
    (params : Ransac.Params ℝ) (shuffles : List (List ℕ)) (d0 : Vec ℝ 6) (hn : poses.length < 2147483648)
    (hm : params.nMinInlier < 2147483648) (hpos : 0 < params.nMinInlier) (hset : params.setSize ≤ poses.length)
    (pw pm : Vec ℝ 3) (h : estimateRansac gels poses params shuffles d0 = some ((pw, pm), true)) :
    ∃ pwh pmh,
      let good := poses.filter fun p => decide (Real.sqrt (lenSq (pwh - p.apply pmh)) < params.threshold)
      params.nMinInlier ≤ good.length ∧
      (∀ r, estimate gels good = some r → r = (pw, pm) ∧
        ∀ pw' pm', tipError good pw pm ≤ tipError good pw' pm') := by
  unfold estimateRansac at h
  rcases Ransac.C21_ransac (ransacEstimator gels) d0 ransacEvaluator params poses shuffles d0 hn hm hpos hset with
    ⟨pre, s, post, -, -, hsucc, hlen, hres⟩ | ⟨-, hres⟩
  · rw [hres] at h
    simp only [Option.some.injEq, Prod.mk.injEq] at h
    obtain ⟨⟨h1, h2⟩, -⟩ := h
    obtain ⟨hyp, hhyp⟩ : ∃ hyp, hyp = (ransacEstimator gels (Ransac.sample poses params s) d0).1 := ⟨_, rfl⟩
    rw [← hhyp] at hlen h1 h2
    refine ⟨![hyp 0, hyp 1, hyp 2], ![hyp 3, hyp 4, hyp 5], ?_⟩
    dsimp only
    have hgood : (poses.filter fun p => decide (Real.sqrt (lenSq (![hyp 0, hyp 1, hyp 2] -
        p.apply ![hyp 3, hyp 4, hyp 5])) < params.threshold)) =
        Ransac.inliers ransacEvaluator params.threshold hyp poses := by
      unfold Ransac.inliers
      apply List.filter_congr
      intro p _
      simp only [ransacEvaluator, norm3_eq]
    rw [hgood]
    refine ⟨hlen, fun r hr => ?_⟩
    obtain ⟨pw1, pm1⟩ := r
    simp only [ransacEstimator, hr] at h1 h2
    have e1 : pw1 = pw := by rw [← h1]; ext i; fin_cases i <;> rfl
    have e2 : pm1 = pm := by rw [← h2]; ext i; fin_cases i <;> rfl
    subst e1 e2
    refine ⟨rfl, C39_optimal hg _ ?_ _ _ hr⟩
    intro p hpp
    exact hp p (List.mem_of_mem_filter hpp)
  · rw [hres] at h
    simp at h

/-- Three poses that meet all hypotheses, the identity and half turns about two axes through (0,0,1): no direction is rotated the same way by all three, and all three map the offset (0,0,1) to the tip (0,0,1). -/
example : let poses : List (Pose ℝ) := [⟨⟨0, 0, 0, 1⟩, 0⟩, ⟨⟨1, 0, 0, 0⟩, ![0, 0, 2]⟩, ⟨⟨0, 1, 0, 0⟩, ![0, 0, 2]⟩]
    UnitPoses poses ∧ NoCommonAxis poses ∧ ∀ p ∈ poses, p.apply ![0, 0, 1] = ![0, 0, 1] := by
  dsimp only
  refine ⟨?_, ?_, ?_⟩
  · intro p hp
    simp only [List.mem_cons, List.not_mem_nil, or_false] at hp
    rcases hp with rfl | rfl | rfl <;> norm_num [UnitQ]
  · intro v hv
    have h1 := hv ⟨⟨0, 0, 0, 1⟩, 0⟩ (by simp) ⟨⟨1, 0, 0, 0⟩, ![0, 0, 2]⟩ (by simp)
    have h2 := hv ⟨⟨0, 0, 0, 1⟩, 0⟩ (by simp) ⟨⟨0, 1, 0, 0⟩, ![0, 0, 2]⟩ (by simp)
    have a1 := congrFun h1 1
    have a2 := congrFun h1 2
    have a0 := congrFun h2 0
    simp [Quat.rotate] at a0 a1 a2
    ext i; fin_cases i <;> simp <;> linarith
  · intro p hp
    simp only [List.mem_cons, List.not_mem_nil, or_false] at hp
    rcases hp with rfl | rfl | rfl <;> (ext i; fin_cases i <;> simp [Pose.apply, Quat.rotate] <;> norm_num)

end Ubitrack
