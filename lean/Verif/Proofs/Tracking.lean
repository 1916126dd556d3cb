import Verif.Model.Tracking
import Mathlib.Tactic
import Mathlib.Data.Nat.Factorial.Basic

/-!
# Helper lemmas for the motion models
-/

namespace Ubitrack.Tracking

open RotationFunction FunctionComposition Stochastic

/-- `rd` reads the original input `x` at every position that has not been overwritten since the buffer was `x0`. -/
def Src {K : Type*} (rd : (ℕ → K) → ℕ → K) (x x0 : ℕ → K) : Prop :=
  ∀ (lo : ℕ) (b : ℕ → K), (∀ j, lo ≤ j → b j = x0 j) → ∀ i, lo ≤ i → rd b i = x i

theorem Src.const {K : Type*} (x x0 : ℕ → K) : Src (fun _ => x) x x0 := fun _ _ _ _ _ => rfl

theorem Src.id {K : Type*} (x : ℕ → K) : Src id x x := fun _ _ h i hi => h i hi

/-- The Taylor sum of the value at position `j` and its derivatives, which follow at a distance of `size`. -/
def taylor {K : Type*} [Field K] (dt : K) (size terms : ℕ) (x : ℕ → K) (j : ℕ) : K :=
  ∑ m ∈ Finset.range terms, dt ^ m / (m.factorial : K) * x (j + size * m)

theorem taylor_factor {K : Type*} [Field K] [CharZero K] (dt : K) (i : ℕ) :
    dt ^ i / (i.factorial : K) * (dt / ((i + 1 : ℕ) : K)) = dt ^ (i + 1) / ((i + 1).factorial : K) := by
  rw [Nat.factorial_succ, pow_succ]
  have h1 : (i.factorial : K) ≠ 0 := Nat.cast_ne_zero.mpr (Nat.factorial_ne_zero i)
  have h2 : ((i + 1 : ℕ) : K) ≠ 0 := Nat.cast_ne_zero.mpr (Nat.succ_ne_zero i)
  push_cast at *
  field_simp

theorem linearTimeUpdate_eq {K : Type*} [Field K] [CharZero K] (dt : K) (size order : ℕ) (rd : (ℕ → K) → ℕ → K) (s : ℕ)
    (b x x0 : ℕ → K) (hrd : Src rd x x0) (hb : ∀ j, s ≤ j → b j = x0 j) :
    linearTimeUpdate dt size order rd s b
      = fun j => if s ≤ j ∧ j < s + size then taylor dt size (order + 1) x j else b j := by
  have key : ∀ n, (List.range n).foldl (fun (st : K × (ℕ → K)) i =>
      (st.1 * (dt / ((i + 1 : ℕ) : K)), bset st.2 s size (fun k => st.2 (s + k) + st.1 * (dt / ((i + 1 : ℕ) : K)) * rd st.2 (s + (size * (i + 1) + k)))))
      (1, bset b s size (fun k => rd b (s + k)))
      = (dt ^ n / (n.factorial : K), fun j => if s ≤ j ∧ j < s + size then taylor dt size (n + 1) x j else b j) := by
    intro n
    induction n with
    | zero =>
      simp only [List.range_zero, List.foldl_nil, pow_zero, Nat.factorial_zero, Nat.cast_one, div_one]
      congr 1
      funext j
      unfold bset
      by_cases hj : s ≤ j ∧ j < s + size
      · rw [if_pos hj, if_pos hj]
        show rd b (s + (j - s)) = _
        rw [hrd s b hb (s + (j - s)) (by omega)]
        simp [taylor]
        congr 1
        omega
      · rw [if_neg hj, if_neg hj]
    | succ n ih =>
      rw [List.range_succ, List.foldl_append, ih]
      simp only [List.foldl_cons, List.foldl_nil, taylor_factor]
      congr 1
      funext j
      unfold bset
      by_cases hj : s ≤ j ∧ j < s + size
      · simp only [if_pos hj]
        have e : s + (j - s) = j := by omega
        have hpos : 0 < size := by omega
        rw [e, if_pos hj]
        have hr := hrd (s + size) (fun j => if s ≤ j ∧ j < s + size then taylor dt size (n + 1) x j else b j)
          (by intro i hi; show ite _ _ _ = _; rw [if_neg (by omega), hb i (by omega)]) (s + (size * (n + 1) + (j - s)))
          (by rw [Nat.mul_succ]; omega)
        rw [hr]
        conv_rhs => rw [taylor, Finset.sum_range_succ, ← taylor]
        have : s + (size * (n + 1) + (j - s)) = j + size * (n + 1) := by omega
        rw [this]
      · simp only [if_neg hj]
  unfold linearTimeUpdate
  exact congrArg Prod.snd (key order)

/-- A loop that fills three positions at a time, from left to right. -/
theorem foldl_three {K : Type*} (step : (ℕ → K) → ℕ → ℕ → K) (B : ℕ) (F : ℕ → K) (b0 x0 : ℕ → K)
    (hb0 : ∀ j, B ≤ j → b0 j = x0 j) (n : ℕ)
    (h : ∀ b i, i < n → (∀ j, B + 3 * i ≤ j → b j = x0 j) →
      step b i = fun j => if B + 3 * i ≤ j ∧ j < B + 3 * i + 3 then F j else b j) :
    (List.range n).foldl step b0 = fun j => if B ≤ j ∧ j < B + 3 * n then F j else b0 j := by
  induction n with
  | zero =>
    funext j
    simp only [List.range_zero, List.foldl_nil]
    rw [if_neg (by omega)]
  | succ n ih =>
    rw [List.range_succ, List.foldl_append, ih (fun b i hi => h b i (by omega))]
    simp only [List.foldl_cons, List.foldl_nil]
    rw [h _ n (by omega) (by intro j hj; show ite _ _ _ = _; rw [if_neg (by omega), hb0 j (by omega)])]
    funext j
    by_cases h1 : B + 3 * n ≤ j ∧ j < B + 3 * n + 3
    · rw [if_pos h1, if_pos (by omega)]
    · rw [if_neg h1]
      by_cases h2 : B ≤ j ∧ j < B + 3 * n
      · rw [if_pos h2, if_pos (by omega)]
      · rw [if_neg h2, if_neg (by omega)]

/-- The product `q exp( dt w_1 ) exp( dt^2 w_2 ) ..` with the velocities following the quaternion. -/
noncomputable def turned (dt : ℝ) (order : ℕ) (x : ℕ → ℝ) (s : ℕ) : Quat ℝ :=
  (List.range order).foldl (fun q i => q.mul (integrate (vecAt x (s + 4 + 3 * i)) (dt ^ (i + 1)))) (quatAt x s)

theorem quaternionTimeUpdate_eq (dt : ℝ) (order : ℕ) (rd : (ℕ → ℝ) → ℕ → ℝ) (s : ℕ) (b x x0 : ℕ → ℝ) (hrd : Src rd x x0)
    (hb : ∀ j, s ≤ j → b j = x0 j) :
    quaternionTimeUpdate dt order rd s b = bset b s 4 (vecBuf (turned dt order x s).toVector) := by
  have hr : ∀ i, s ≤ i → rd b i = x i := hrd s b hb
  have hq : quatAt (rd b) s = quatAt x s := by
    unfold quatAt
    rw [hr _ (by omega), hr _ (by omega), hr _ (by omega), hr _ (by omega)]
  have key : ∀ n, (List.range n).foldl (fun (st : Quat ℝ × ℝ) i =>
      (st.1.mul (integrate (fun k : Fin 3 => rd b (s + (4 + 3 * i + k.val))) st.2), st.2 * dt)) (quatAt (rd b) s, dt)
      = (turned dt n x s, dt ^ (n + 1)) := by
    intro n
    induction n with
    | zero => simp [turned, hq]
    | succ n ih =>
      rw [List.range_succ, List.foldl_append, ih]
      simp only [List.foldl_cons, List.foldl_nil]
      refine Prod.ext ?_ (by simp only [pow_succ])
      simp only
      conv_rhs => rw [turned, List.range_succ, List.foldl_append]
      simp only [List.foldl_cons, List.foldl_nil]
      congr 2
      funext k
      rw [hr _ (by omega)]
      unfold vecAt
      congr 1
      omega
  unfold quaternionTimeUpdate
  have h2 := congrArg Prod.fst (key order)
  simp only at h2 ⊢
  rw [h2]

/-- What the pose update writes: Taylor sums for position and angular velocity, the turned quaternion. -/
noncomputable def poseValue (dt : ℝ) (np nr : ℕ) (x : ℕ → ℝ) (j : ℕ) : ℝ :=
  if j < 3 * np then taylor dt 3 (np - j / 3) x j
  else if j < 3 * np + 4 then vecBuf (turned dt (nr - 1) x (3 * np)).toVector (j - 3 * np)
  else taylor dt 3 (nr - 1 - (j - (3 * np + 4)) / 3) x j

theorem poseTimeUpdate_eq (dt : ℝ) (np nr : ℕ) (rd : (ℕ → ℝ) → ℕ → ℝ) (x b0 : ℕ → ℝ) (hrd : Src rd x b0) (j : ℕ)
    (hj : j < stateSize np nr) : poseTimeUpdate dt np nr rd b0 j = poseValue dt np nr x j := by
  unfold poseTimeUpdate
  rw [foldl_three (B := 0) (F := fun j => taylor dt 3 (np - j / 3) x j) (b0 := b0) (x0 := b0) (hb0 := fun _ _ => rfl) (n := np)]
  · unfold stateSize at hj
    by_cases hn : 0 < nr
    · simp only [hn, ↓reduceIte] at hj ⊢
      rw [quaternionTimeUpdate_eq dt (nr - 1) rd (3 * np) _ x b0 hrd
        (by intro j hj; show ite _ _ _ = _; rw [if_neg (by omega)])]
      rw [foldl_three (B := 3 * np + 4) (F := fun j => taylor dt 3 (nr - 1 - (j - (3 * np + 4)) / 3) x j) (x0 := b0)
        (hb0 := by intro j hj; unfold bset; rw [if_neg (by omega)]; show ite _ _ _ = _; rw [if_neg (by omega)])]
      · unfold poseValue bset
        dsimp only
        by_cases h1 : j < 3 * np
        · rw [if_neg (by omega), if_neg (by omega), if_pos (by omega), if_pos h1]
        · by_cases h2 : j < 3 * np + 4
          · rw [if_neg (by omega), if_pos (by omega), if_neg h1, if_pos h2]
          · rw [if_pos (by omega), if_neg h1, if_neg h2]
      · intro b i hi hb
        have e : 3 * np + 1 + 3 * (i + 1) = 3 * np + 4 + 3 * i := by omega
        rw [e, linearTimeUpdate_eq dt 3 _ rd _ b x b0 hrd hb]
        funext j
        by_cases hj : 3 * np + 4 + 3 * i ≤ j ∧ j < 3 * np + 4 + 3 * i + 3
        · rw [if_pos hj, if_pos hj]
          congr 1
          omega
        · rw [if_neg hj, if_neg hj]
    · have : nr = 0 := by omega
      subst this
      simp only [lt_irrefl, ↓reduceIte] at hj ⊢
      simp only [Nat.zero_sub, List.range_zero, List.foldl_nil]
      unfold poseValue
      rw [if_pos (by omega), if_pos (by omega)]
  · intro b i hi hb
    rw [Nat.zero_add] at hb ⊢
    rw [linearTimeUpdate_eq dt 3 _ rd _ b x b0 hrd hb]
    funext j
    by_cases hj : 3 * i ≤ j ∧ j < 3 * i + 3
    · rw [if_pos hj, if_pos hj]
      congr 1
      omega
    · rw [if_neg hj, if_neg hj]

end Ubitrack.Tracking

namespace Ubitrack.Tracking

/-! ## Jacobians -/

/-- Row `r` of the Jacobian of a Taylor sum with `terms` terms over vectors of length 3. -/
def taylorJac {K : Type*} [Field K] (dt : K) (terms r c : ℕ) : K :=
  if r ≤ c ∧ (c - r) % 3 = 0 ∧ (c - r) / 3 < terms then dt ^ ((c - r) / 3) / (((c - r) / 3).factorial : K) else 0

theorem linearTimeUpdateJac_eq {K : Type*} [Field K] [CharZero K] (dt : K) (order s : ℕ) (J : ℕ → ℕ → K) :
    linearTimeUpdateJac dt 3 order s J
      = fun r c => if (s ≤ r ∧ r < s + 3) ∧ s ≤ c ∧ c < s + 3 * (order + 1) then taylorJac dt (order + 1) r c else J r c := by
  have key : ∀ n, (List.range n).foldl (fun (st : K × (ℕ → ℕ → K)) i =>
      (st.1 * (dt / ((i + 1 : ℕ) : K)), mset st.2 s 3 (s + 3 * (i + 1)) 3 (fun a b => st.1 * (dt / ((i + 1 : ℕ) : K)) * if a = b then 1 else 0)))
      (1, mset J s 3 s 3 (fun a b => if a = b then 1 else 0))
      = (dt ^ n / (n.factorial : K), fun r c => if (s ≤ r ∧ r < s + 3) ∧ s ≤ c ∧ c < s + 3 * (n + 1) then taylorJac dt (n + 1) r c else J r c) := by
    intro n
    induction n with
    | zero =>
      simp only [List.range_zero, List.foldl_nil, pow_zero, Nat.factorial_zero, Nat.cast_one, div_one]
      congr 1
      funext r c
      simp only [mset, taylorJac]
      split_ifs <;> first
        | rfl
        | (exfalso; omega)
        | (have e : (c - r) / 3 = 0 := by omega
           rw [e]; simp)
    | succ n ih =>
      rw [List.range_succ, List.foldl_append, ih]
      simp only [List.foldl_cons, List.foldl_nil, taylor_factor]
      congr 1
      funext r c
      simp only [mset, taylorJac]
      split_ifs <;> first
        | rfl
        | (exfalso; omega)
        | exact mul_zero _
        | (have e : (c - r) / 3 = n + 1 := by omega
           rw [e, mul_one])
  unfold linearTimeUpdateJac
  exact congrArg Prod.snd (key order)

/-- A loop that fills three rows of a matrix at a time. -/
theorem foldl_three_rows {K : Type*} (step : (ℕ → ℕ → K) → ℕ → ℕ → ℕ → K) (B N : ℕ) (F : ℕ → ℕ → K) (J0 : ℕ → ℕ → K) (n : ℕ)
    (h : ∀ J i, i < n → ∀ r c, c < N → step J i r c = if B + 3 * i ≤ r ∧ r < B + 3 * i + 3 then F r c else J r c) :
    ∀ r c, c < N → (List.range n).foldl step J0 r c = if B ≤ r ∧ r < B + 3 * n then F r c else J0 r c := by
  induction n with
  | zero =>
    intro r c _
    simp only [List.range_zero, List.foldl_nil]
    rw [if_neg (by omega)]
  | succ n ih =>
    intro r c hc
    rw [List.range_succ, List.foldl_append]
    simp only [List.foldl_cons, List.foldl_nil]
    rw [h _ n (by omega) r c hc, ih (fun J i hi => h J i (by omega)) r c hc]
    by_cases h1 : B + 3 * n ≤ r ∧ r < B + 3 * n + 3
    · rw [if_pos h1, if_pos (by omega)]
    · rw [if_neg h1]
      by_cases h2 : B ≤ r ∧ r < B + 3 * n
      · rw [if_pos h2, if_pos (by omega)]
      · rw [if_neg h2, if_neg (by omega)]

/-- The block row the quaternion update writes. -/
noncomputable def quatJac (dt : ℝ) (s : ℕ) (q : Quat ℝ) (r c : ℕ) : ℝ :=
  if c < s then 0 else if c < s + 4 then (if r = c then 1 else 0)
  else matBuf (quatBlock (dt ^ ((c - (s + 4)) / 3 + 2)) q) (r - s) ((c - (s + 4)) % 3)

theorem quaternionTimeUpdateJac_eq (dt : ℝ) (order s : ℕ) (x : ℕ → ℝ) (J : ℕ → ℕ → ℝ) (r c : ℕ) :
    quaternionTimeUpdateJac dt order s x J r c
      = if (s ≤ r ∧ r < s + 4) ∧ s ≤ c ∧ c < s + 4 + 3 * order then quatJac dt s (quatAt x s) r c else J r c := by
  have key : ∀ n, (List.range n).foldl (fun (st : (ℕ → ℕ → ℝ) × ℝ) i =>
      (mset st.1 s 4 (s + (4 + i * 3)) 3 (matBuf (quatBlock (st.2 * dt) (quatAt x s))), st.2 * dt)) (J, dt)
      = (fun r c => if (s ≤ r ∧ r < s + 4) ∧ s + 4 ≤ c ∧ c < s + 4 + 3 * n then quatJac dt s (quatAt x s) r c else J r c, dt ^ (n + 1)) := by
    intro n
    induction n with
    | zero =>
      simp only [List.range_zero, List.foldl_nil, zero_add, pow_one]
      congr 1
      funext r c
      rw [if_neg (by omega)]
    | succ n ih =>
      rw [List.range_succ, List.foldl_append, ih]
      simp only [List.foldl_cons, List.foldl_nil, ← pow_succ]
      congr 1
      funext r c
      simp only [mset]
      by_cases h1 : (s ≤ r ∧ r < s + 4) ∧ s + (4 + n * 3) ≤ c ∧ c < s + (4 + n * 3) + 3
      · rw [if_pos h1, if_pos (by omega)]
        unfold quatJac
        rw [if_neg (by omega), if_neg (by omega)]
        have e1 : (c - (s + 4)) / 3 = n := by omega
        have e2 : (c - (s + 4)) % 3 = c - (s + (4 + n * 3)) := by omega
        rw [e1, e2]
      · rw [if_neg h1]
        by_cases h2 : (s ≤ r ∧ r < s + 4) ∧ s + 4 ≤ c ∧ c < s + 4 + 3 * n
        · rw [if_pos h2, if_pos (by omega)]
        · rw [if_neg h2, if_neg (by omega)]
  unfold quaternionTimeUpdateJac
  have h2 := congrArg Prod.fst (key order)
  simp only at h2 ⊢
  rw [h2]
  simp only [mset]
  by_cases h1 : (s ≤ r ∧ r < s + 4) ∧ s ≤ c ∧ c < s + 4
  · rw [if_pos h1]
    have h4 : (s ≤ r ∧ r < s + 4) ∧ s ≤ c ∧ c < s + 4 + 3 * order := by omega
    rw [if_pos h4]
    unfold quatJac
    split_ifs <;> first | rfl | (exfalso; omega)
  · rw [if_neg h1]
    by_cases h3 : (s ≤ r ∧ r < s + 4) ∧ s + 4 ≤ c ∧ c < s + 4 + 3 * order
    · rw [if_pos h3, if_pos (by omega)]
    · rw [if_neg h3, if_neg (by omega)]

/-- The Jacobian the pose update writes. -/
noncomputable def poseJac (dt : ℝ) (np nr : ℕ) (x : ℕ → ℝ) (r c : ℕ) : ℝ :=
  if r < 3 * np then (if c < 3 * np then taylorJac dt (np - r / 3) r c else 0)
  else if r < 3 * np + 4 then quatJac dt (3 * np) (quatAt x (3 * np)) r c
  else taylorJac dt (nr - 1 - (r - (3 * np + 4)) / 3) r c

theorem poseTimeUpdateJac_eq (dt : ℝ) (np nr : ℕ) (x : ℕ → ℝ) (J0 : ℕ → ℕ → ℝ) (r c : ℕ)
    (hr : r < stateSize np nr) (hc : c < stateSize np nr) : poseTimeUpdateJac dt np nr x J0 r c = poseJac dt np nr x r c := by
  have hpos : ∀ (J : ℕ → ℕ → ℝ) i, i < np → ∀ r c, c < stateSize np nr →
      mset (mset (linearTimeUpdateJac dt 3 (np - 1 - i) (3 * i) J) (3 * i) 3 0 (3 * i) (fun _ _ => 0)) (3 * i) 3 (3 * np)
        (stateSize np nr - 3 * np) (fun _ _ => 0) r c
      = if 0 + 3 * i ≤ r ∧ r < 0 + 3 * i + 3 then (if c < 3 * np then taylorJac dt (np - r / 3) r c else 0) else J r c := by
    intro J i hi r c hc
    rw [linearTimeUpdateJac_eq]
    simp only [mset]
    by_cases h : 0 + 3 * i ≤ r ∧ r < 0 + 3 * i + 3
    · rw [if_pos h]
      by_cases h1 : c < 3 * np
      · rw [if_neg (by omega), if_pos h1]
        by_cases h2 : c < 3 * i
        · rw [if_pos (by omega)]
          unfold taylorJac
          rw [if_neg (by omega)]
        · rw [if_neg (by omega), if_pos (by omega)]
          have : np - 1 - i + 1 = np - r / 3 := by omega
          rw [this]
      · rw [if_pos (by omega), if_neg h1]
    · rw [if_neg (by omega), if_neg (by omega), if_neg (by omega), if_neg h]
  have hang : ∀ (J : ℕ → ℕ → ℝ) i, i < nr - 1 → ∀ r c, c < stateSize np nr →
      mset (linearTimeUpdateJac dt 3 (nr - 1 - (i + 1)) (3 * np + 1 + 3 * (i + 1)) J) (3 * np + 1 + 3 * (i + 1)) 3 0
        (3 * np + 1 + 3 * (i + 1)) (fun _ _ => 0) r c
      = if (3 * np + 4) + 3 * i ≤ r ∧ r < (3 * np + 4) + 3 * i + 3 then taylorJac dt (nr - 1 - (r - (3 * np + 4)) / 3) r c else J r c := by
    intro J i hi r c hc
    unfold stateSize at hc
    rw [if_pos (by omega)] at hc
    rw [linearTimeUpdateJac_eq]
    simp only [mset]
    by_cases h : (3 * np + 4) + 3 * i ≤ r ∧ r < (3 * np + 4) + 3 * i + 3
    · rw [if_pos h]
      by_cases h2 : c < 3 * np + 1 + 3 * (i + 1)
      · rw [if_pos (by omega)]
        unfold taylorJac
        rw [if_neg (by omega)]
      · rw [if_neg (by omega), if_pos (by omega)]
        congr 1
        omega
    · rw [if_neg (by omega), if_neg (by omega), if_neg h]
  unfold poseTimeUpdateJac
  rw [foldl_three_rows _ (3 * np + 4) (stateSize np nr) (fun r c => taylorJac dt (nr - 1 - (r - (3 * np + 4)) / 3) r c) _ (nr - 1) hang r c hc]
  unfold poseJac
  by_cases h1 : 3 * np + 4 ≤ r ∧ r < 3 * np + 4 + 3 * (nr - 1)
  · rw [if_pos h1, if_neg (by omega), if_neg (by omega)]
  · rw [if_neg h1]
    have hn := hr
    have hn2 := hc
    unfold stateSize at hn hn2
    by_cases h0 : 0 < nr
    · rw [if_pos h0]
      rw [if_pos h0] at hn hn2
      simp only [mset]
      by_cases h2 : r < 3 * np
      · rw [if_neg (by omega), quaternionTimeUpdateJac_eq, if_neg (by omega), if_pos h2]
        refine (foldl_three_rows _ 0 (stateSize np nr) (fun r c => if c < 3 * np then taylorJac dt (np - r / 3) r c else 0) J0 np hpos r c hc).trans ?_
        rw [if_pos (by omega)]
      · rw [if_neg h2]
        have h5 : r < 3 * np + 4 := by omega
        rw [if_pos h5]
        by_cases h3 : c < 3 * np
        · have h4 : (3 * np ≤ r ∧ r < 3 * np + 4) ∧ 0 ≤ c ∧ c < 0 + 3 * np := by omega
          rw [if_pos h4]
          unfold quatJac
          rw [if_pos h3]
        · have h4 : ¬((3 * np ≤ r ∧ r < 3 * np + 4) ∧ 0 ≤ c ∧ c < 0 + 3 * np) := by omega
          rw [if_neg h4, quaternionTimeUpdateJac_eq, if_pos (by omega)]
    · rw [if_neg h0]
      rw [if_neg h0] at hn hn2
      refine (foldl_three_rows _ 0 (stateSize np nr) (fun r c => if c < 3 * np then taylorJac dt (np - r / 3) r c else 0) J0 np hpos r c hc).trans ?_
      have h5 : r < 3 * np := by omega
      rw [if_pos (by omega), if_pos h5]

end Ubitrack.Tracking
