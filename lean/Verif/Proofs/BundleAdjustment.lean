import Verif.Model.BundleAdjustment
import Verif.Proofs.Projection

/-!
# Helper lemmas for bundle adjustment
-/

namespace Ubitrack.BundleAdjustment

open Spec ProjectionFunction RotationFunction

/-- A loop with a counter advanced by two is a loop that computes the row from the index. -/
theorem foldl_counter {N : ℕ} {α : Type*} (step : α → ℕ → Fin N → α) (a : α) :
    (List.finRange N).foldl (fun (s : α × ℕ) i => (step s.1 s.2 i, s.2 + 2)) (a, 0)
      = ((List.finRange N).foldl (fun a (i : Fin N) => step a (2 * i.val) i) a, 2 * N) := by
  induction N with
  | zero => simp
  | succ N ih =>
    rw [List.finRange_succ_last, List.foldl_append, List.foldl_append, List.foldl_map, List.foldl_map,
      ih (fun a n i => step a n i.castSucc)]
    simp
    omega

/-- Two nested loops as one. -/
theorem foldl_nested {m n : ℕ} {α : Type*} (f : α → Fin m → Fin n → α) (a : α) :
    (List.finRange m).foldl (fun a c => (List.finRange n).foldl (fun a p => f a c p) a) a
      = (List.finRange (m * n)).foldl (fun a i => f a i.divNat i.modNat) a := by
  have h : (List.finRange (m * n)).map (fun i => (i.divNat, i.modNat))
      = (List.finRange m).flatMap fun c => (List.finRange n).map fun p => (c, p) := by
    rw [← List.ofFn_eq_map, List.ofFn_mul, List.flatMap_def, ← List.ofFn_eq_map]
    congr 2
    funext i
    rw [← List.ofFn_eq_map]
    congr 1
    funext j
    have hn : 0 < n := lt_of_le_of_lt (Nat.zero_le _) j.isLt
    refine Prod.ext (Fin.ext ?_) (Fin.ext ?_)
    · simp only [Fin.coe_divNat]
      rw [Nat.add_comm, Nat.add_mul_div_right _ _ hn, Nat.div_eq_of_lt j.isLt, Nat.zero_add]
    · simp only [Fin.coe_modNat]
      rw [Nat.add_comm, Nat.add_mul_mod_self_right, Nat.mod_eq_of_lt j.isLt]
  have e : (List.finRange (m * n)).foldl (fun a i => f a i.divNat i.modNat) a
      = ((List.finRange (m * n)).map (fun i => (i.divNat, i.modNat))).foldl (fun a cp => f a cp.1 cp.2) a := by
    rw [List.foldl_map]
  rw [e, h, List.foldl_flatMap]
  congr 1
  funext a c
  rw [List.foldl_map]

/-- A loop that at step `i` changes only rows `2i` and `2i+1`, starting from `J0`. -/
theorem foldl_rows_init {n : ℕ} {α : Type*} (step : (Fin (2 * n) → α) → Fin n → Fin (2 * n) → α) (g : Fin n → Fin 2 → α)
    (J0 : Fin (2 * n) → α)
    (h1 : ∀ J i r, r.val / 2 = i.val → (∀ r', r'.val / 2 = i.val → J r' = J0 r') → step J i r = g i ⟨r.val % 2, by omega⟩)
    (h2 : ∀ J i r, r.val / 2 ≠ i.val → step J i r = J r) :
    (List.finRange n).foldl step J0 = stack2 g := by
  have key : ∀ (l : List (Fin n)) (J : Fin (2 * n) → α), l.Nodup →
      (∀ r : Fin (2 * n), (⟨r.val / 2, by omega⟩ : Fin n) ∈ l → J r = J0 r) → ∀ r : Fin (2 * n),
      l.foldl step J r = if (⟨r.val / 2, by omega⟩ : Fin n) ∈ l then stack2 g r else J r := by
    intro l
    induction l with
    | nil => intro J _ _ r; simp
    | cons a l ih =>
      intro J hn hJ r
      rw [List.foldl_cons, ih _ (List.nodup_cons.mp hn).2]
      · by_cases hl : (⟨r.val / 2, by omega⟩ : Fin n) ∈ l
        · simp [hl]
        · by_cases ha : (⟨r.val / 2, by omega⟩ : Fin n) = a
          · have hm : (⟨r.val / 2, by omega⟩ : Fin n) ∈ a :: l := by rw [ha]; exact List.mem_cons_self
            rw [if_neg hl, if_pos hm, h1 J a r (by rw [← ha])]
            · subst ha
              rfl
            · intro r' hr'
              apply hJ
              rw [show (⟨r'.val / 2, by omega⟩ : Fin n) = a from Fin.ext hr']
              exact List.mem_cons_self
          · rw [if_neg hl, if_neg (by simp [hl, ha]), h2]
            intro h
            exact ha (Fin.ext h)
      · intro r' hr'
        rw [h2, hJ r' (List.mem_cons_of_mem _ hr')]
        intro h
        have : (⟨r'.val / 2, by omega⟩ : Fin n) = a := Fin.ext h
        rw [this] at hr'
        exact (List.nodup_cons.mp hn).1 hr'
  funext r
  rw [key _ _ (List.nodup_finRange n) (fun _ _ => rfl), if_pos (List.mem_finRange _)]

theorem setRange_in {K : Type*} {m a : ℕ} (v : Vec K m) (r0 : ℕ) (w : Vec K a) (r : Fin m) (k : Fin a)
    (h : r.val = r0 + k.val) : setRange v r0 w r = w k := by
  unfold setRange
  rw [dif_pos (by omega)]
  congr 1
  exact Fin.ext (by simp; omega)

theorem setRange_out {K : Type*} {m a : ℕ} (v : Vec K m) (r0 : ℕ) (w : Vec K a) (r : Fin m)
    (h : r.val < r0 ∨ r0 + a ≤ r.val) : setRange v r0 w r = v r := by
  unfold setRange
  rw [dif_neg (by omega)]

end Ubitrack.BundleAdjustment
