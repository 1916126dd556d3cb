import Verif.Model.KMeans
import Mathlib.Tactic.Linarith
import Mathlib.Tactic.Ring
import Mathlib.Tactic.FieldSimp
import Mathlib.Algebra.BigOperators.Group.List.Basic

/-!
# C25: k-means
-/

namespace Ubitrack.KMeans

variable {d : ℕ}

/-- Specification: `k` is the label of a nearest centroid, the first one among equally near ones. NaN centroids
are not counted. -/
def IsNearest (dist : Vec ℝ d → Vec ℝ d → ℝ) (means : List (Centroid d)) (v : Vec ℝ d) (k : ℕ) : Prop :=
  ∃ m, means[k]? = some (some m) ∧
    ∀ (j : ℕ) m', means[j]? = some (some m') → dist v m ≤ dist v m' ∧ (j < k → dist v m < dist v m')

theorem assignLoop_spec (dist : Vec ℝ d → Vec ℝ d → ℝ) (v : Vec ℝ d) (rest seen : List (Centroid d)) (m : Vec ℝ d)
    (k : ℕ) (hk : seen[k]? = some (some m))
    (hn : ∀ (j : ℕ) m', seen[j]? = some (some m') → dist v m ≤ dist v m' ∧ (j < k → dist v m < dist v m')) :
    IsNearest dist (seen ++ rest) v (assignLoop dist v rest seen.length (some (dist v m)) k) := by
  induction rest generalizing seen m k with
  | nil =>
    rw [List.append_nil]
    exact ⟨m, hk, hn⟩
  | cons x xs ih =>
    have e : seen ++ x :: xs = (seen ++ [x]) ++ xs := by simp
    have el : seen.length + 1 = (seen ++ [x]).length := by simp
    have hklt : k < seen.length := (List.getElem?_eq_some_iff.mp hk).1
    unfold assignLoop
    dsimp only
    split_ifs with hlt
    · rcases x with _ | x
      · simp [distO, ltO] at hlt
      · simp only [distO, Option.map_some, ltO] at hlt ⊢
        rw [e, el]
        apply ih
        · simp
        · intro j m' hj
          rw [List.getElem?_append] at hj
          split_ifs at hj with hjl
          · have := (hn j m' hj).1
            exact ⟨by linarith, fun _ => by linarith⟩
          · have hj0 : j - seen.length = 0 := by
              by_contra h0
              obtain ⟨i, hi⟩ := Nat.exists_eq_succ_of_ne_zero h0
              rw [hi] at hj; simp at hj
            rw [hj0] at hj
            simp at hj
            subst hj
            exact ⟨le_rfl, fun h => by omega⟩
    · rw [e, el]
      apply ih
      · rw [List.getElem?_append_left hklt]; exact hk
      · intro j m' hj
        rw [List.getElem?_append] at hj
        split_ifs at hj with hjl
        · exact hn j m' hj
        · have hj0 : j - seen.length = 0 := by
            by_contra h0
            obtain ⟨i, hi⟩ := Nat.exists_eq_succ_of_ne_zero h0
            rw [hi] at hj; simp at hj
          rw [hj0] at hj
          simp at hj
          subst hj
          simp only [distO, Option.map_some, ltO, not_lt] at hlt
          exact ⟨hlt, fun h => by omega⟩

/-- The label given to a vector is that of the nearest centroid, unless the first centroid is NaN. -/
theorem assign_nearest (dist : Vec ℝ d → Vec ℝ d → ℝ) (m : Vec ℝ d) (ms : List (Centroid d)) (v : Vec ℝ d) :
    IsNearest dist (some m :: ms) v (assign dist (some m :: ms) v) := by
  have := assignLoop_spec dist v ms [some m] m 0 (by simp) (by
    intro j m' hj
    rcases j with _ | j
    · simp at hj; subst hj; exact ⟨le_rfl, fun h => by omega⟩
    · simp at hj)
  exact this

/-- If the first centroid is NaN, every vector gets label 0. -/
theorem assign_nan (dist : Vec ℝ d → Vec ℝ d → ℝ) (ms : List (Centroid d)) (v : Vec ℝ d) :
    assign dist (none :: ms) v = 0 := by
  have : ∀ (ms : List (Centroid d)) kNow, assignLoop dist v ms kNow none 0 = 0 := by
    intro ms
    induction ms with
    | nil => intro _; rfl
    | cons x xs ih =>
      intro kNow
      unfold assignLoop
      dsimp only
      rw [if_neg (by rcases x with _ | x <;> simp [distO, ltO])]
      exact ih _
  exact this ms 1

theorem accumulate_length (data : List (Vec ℝ d)) (indices : List ℕ) (sums : List (Vec ℝ d)) :
    (accumulate data indices sums).length = sums.length := by
  unfold accumulate
  generalize data.zip indices = l
  induction l generalizing sums with
  | nil => rfl
  | cons x xs ih => rw [List.foldl_cons, ih, List.length_modify]

theorem newMeans_length (data : List (Vec ℝ d)) (indices : List ℕ) (n : ℕ) :
    (newMeans data indices n).length = n := by
  unfold newMeans
  rw [List.length_mapIdx, accumulate_length, List.length_replicate]

/-- The data carrying label `k`. -/
def members (data : List (Vec ℝ d)) (indices : List ℕ) (k : ℕ) : List (Vec ℝ d) :=
  ((data.zip indices).filter (fun x => x.2 = k)).map Prod.fst

theorem accumulate_get (data : List (Vec ℝ d)) (indices : List ℕ) (sums : List (Vec ℝ d)) (k : ℕ) :
    (accumulate data indices sums)[k]? = (sums[k]?).map (· + (members data indices k).sum) := by
  unfold accumulate members
  generalize data.zip indices = l
  induction l generalizing sums with
  | nil => simp
  | cons x xs ih =>
    rw [List.foldl_cons, ih, List.getElem?_modify]
    by_cases h : x.2 = k
    · simp only [h, decide_true, List.filter_cons_of_pos, List.map_cons, List.sum_cons]
      cases sums[k]? with
      | none => rfl
      | some s => simp [add_assoc]
    · simp only [if_neg h]
      have hf : (x :: xs).filter (fun x => decide (x.2 = k)) = xs.filter (fun x => decide (x.2 = k)) := by
        rw [List.filter_cons_of_neg]; simpa using h
      rw [hf]
      cases sums[k]? <;> simp

theorem members_length (data : List (Vec ℝ d)) (indices : List ℕ) (h : data.length = indices.length) (k : ℕ) :
    (members data indices k).length = indices.count k := by
  unfold members
  induction data generalizing indices with
  | nil =>
    have : indices = [] := List.eq_nil_of_length_eq_zero h.symm
    subst this; simp
  | cons x xs ih =>
    rcases indices with _ | ⟨i, is⟩
    · simp at h
    · have := ih is (by simpa using h)
      simp only [List.length_map] at this ⊢
      by_cases hi : i = k
      · subst hi; simp [this]
      · simp [hi, this]

/-- **C25** The new centroid of every cluster is the arithmetic mean of the vectors with its label; an empty cluster
gets a NaN centroid. -/
theorem C25_centroid_is_mean (data : List (Vec ℝ d)) (indices : List ℕ) (n : ℕ) (h : data.length = indices.length)
    (k : ℕ) (hk : k < n) :
    (newMeans data indices n)[k]? =
      some (if members data indices k = [] then none
        else some (((members data indices k).length : ℝ)⁻¹ • (members data indices k).sum)) := by
  have hl := members_length data indices h k
  unfold newMeans
  rw [List.getElem?_mapIdx, accumulate_get, List.getElem?_replicate, if_pos hk]
  simp only [Option.map_some, zero_add, hl]
  congr 1
  by_cases h0 : indices.count k = 0
  · rw [if_pos h0, if_pos (List.eq_nil_of_length_eq_zero (by rw [hl]; exact h0))]
  · rw [if_neg h0, if_neg]
    intro hnil
    rw [hnil] at hl
    exact h0 hl.symm

/-- What the loop guarantees at its end, given that labels and centroids match at its start. -/
theorem loop_labels (dist : Vec ℝ d → Vec ℝ d → ℝ) (data : List (Vec ℝ d)) (i : ℕ) (means : List (Centroid d)) :
    let r := loop dist data i means (data.map (assign dist means))
    r.2 = data.map (assign dist r.1) ∧ r.1.length = means.length := by
  induction i generalizing means with
  | zero => exact ⟨rfl, rfl⟩
  | succ i ih =>
    dsimp only
    unfold loop
    dsimp only
    split_ifs
    · exact ⟨rfl, newMeans_length _ _ _⟩
    · have := ih (newMeans data (data.map (assign dist means)) means.length)
      dsimp only at this
      rw [newMeans_length] at this
      exact this

/-- **C25** As many centroids are returned as were put in, and, unless the first returned centroid is NaN, the returned
label of every vector belongs to a returned centroid nearest to it (the first one if there are several). -/
theorem C25_labels_partial (dist : Vec ℝ d → Vec ℝ d → ℝ) (data : List (Vec ℝ d)) (start : List (Vec ℝ d)) :
    let r := kMeansFrom dist data start
    r.1.length = start.length ∧ r.2.length = data.length ∧
    (r.1.head? ≠ some none → start ≠ [] →
      ∀ (i : ℕ) v, data[i]? = some v → ∃ k : ℕ, r.2[i]? = some k ∧ k < r.1.length ∧ IsNearest dist r.1 v k) := by
  intro r
  obtain ⟨h1, h2⟩ := loop_labels dist data 100 (start.map some)
  have e1 : r.1.length = start.length := by
    change (kMeansFrom dist data start).1.length = _
    unfold kMeansFrom
    rw [h2, List.length_map]
  have e2 : r.2 = data.map (assign dist r.1) := h1
  refine ⟨e1, by rw [e2, List.length_map], ?_⟩
  intro hh hs i v hv
  refine ⟨assign dist r.1 v, ?_, ?_⟩
  · rw [e2, List.getElem?_map, hv]; rfl
  · rcases hr : r.1 with _ | ⟨m, ms⟩
    · rw [hr] at e1
      exact absurd (List.eq_nil_of_length_eq_zero e1.symm) hs
    · rcases m with _ | m
      · rw [hr] at hh; simp at hh
      · have := assign_nearest dist m ms v
        refine ⟨?_, this⟩
        obtain ⟨m', hm', -⟩ := this
        exact (List.getElem?_eq_some_iff.mp hm').1

/-! ### The objective never increases -/

/-- Specification: the objective, the sum of squared distances of the vectors to the centroids of their labels. -/
def objective (data : List (Vec ℝ d)) (indices : List ℕ) (c : ℕ → Vec ℝ d) : ℝ :=
  ((data.zip indices).map (fun x => sqDist x.1 (c x.2))).sum

theorem sum_group {β : Type} (l : List (β × ℕ)) (f : β → ℕ → ℝ) (n : ℕ) (hl : ∀ x ∈ l, x.2 < n) :
    (l.map (fun x => f x.1 x.2)).sum =
      ((List.range n).map (fun k => ((l.filter (fun x => x.2 = k)).map (fun x => f x.1 k)).sum)).sum := by
  induction l with
  | nil => simp
  | cons x xs ih =>
    have hx : x.2 < n := hl x (by simp)
    rw [List.map_cons, List.sum_cons, ih (fun y hy => hl y (by simp [hy]))]
    have hsplit : ∀ k, (((x :: xs).filter (fun x => x.2 = k)).map (fun x => f x.1 k)).sum =
        (if x.2 = k then f x.1 k else 0) + ((xs.filter (fun x => x.2 = k)).map (fun x => f x.1 k)).sum := by
      intro k
      by_cases h : x.2 = k
      · simp [h]
      · simp [h]
    simp only [hsplit]
    rw [List.sum_map_add]
    congr 1
    clear ih hl hsplit
    induction n with
    | zero => omega
    | succ n ihn =>
      rw [List.range_succ, List.map_append, List.sum_append]
      by_cases h : x.2 = n
      · have : ((List.range n).map (fun k => if x.2 = k then f x.1 k else 0)).sum = 0 := by
          apply List.sum_eq_zero
          intro y hy
          rw [List.mem_map] at hy
          obtain ⟨k, hk, rfl⟩ := hy
          rw [if_neg]
          rw [List.mem_range] at hk; omega
        rw [this]; simp [h]
      · rw [← ihn (by omega)]; simp [h]

theorem sum_sq_mean_le (l : List (Vec ℝ d)) (hl : l ≠ []) (m : Vec ℝ d) :
    (l.map (fun x => sqDist x ((l.length : ℝ)⁻¹ • l.sum))).sum ≤ (l.map (fun x => sqDist x m)).sum := by
  set c := (l.length : ℝ)⁻¹ • l.sum with hc
  have hlen : (l.length : ℝ) ≠ 0 := by
    have := List.length_pos_iff.mpr hl
    exact_mod_cast this.ne'
  have hzero : ∀ i, (l.map (fun x => x i - c i)).sum = 0 := by
    intro i
    have e1 : (l.map (fun x => x i - c i)).sum = (l.map (fun x => x i)).sum - l.length * c i := by
      clear hlen hl
      clear hc
      clear_value c
      induction l with
      | nil => simp
      | cons x xs ih => simp [ih]; ring
    have e2 : (l.map (fun x => x i)).sum = l.sum i := by
      clear hc e1 hlen hl
      induction l with
      | nil => simp
      | cons x xs ih => simp [ih]
    rw [e1, e2, hc]
    simp
    field_simp
    ring
  have key : ∀ x, sqDist x m = sqDist x c + ((∑ i, 2 * (c i - m i) * (x i - c i)) + sqDist c m) := by
    intro x
    unfold sqDist
    rw [← Finset.sum_add_distrib, ← Finset.sum_add_distrib]
    refine Finset.sum_congr rfl fun i _ => ?_
    simp only [Pi.sub_apply]
    ring
  have e : (l.map (fun x => sqDist x m)).sum =
      (l.map (fun x => sqDist x c)).sum + (l.length * sqDist c m) := by
    have hcross : (l.map (fun x => ∑ i, 2 * (c i - m i) * (x i - c i))).sum = 0 := by
      have hsw : ∀ l' : List (Vec ℝ d), (l'.map (fun x => ∑ i, 2 * (c i - m i) * (x i - c i))).sum =
          ∑ i, 2 * (c i - m i) * (l'.map (fun x => x i - c i)).sum := by
        intro l'
        induction l' with
        | nil => simp
        | cons x xs ih =>
          rw [List.map_cons, List.sum_cons, ih, ← Finset.sum_add_distrib]
          refine Finset.sum_congr rfl fun i _ => ?_
          rw [List.map_cons, List.sum_cons]; ring
      rw [hsw]
      apply Finset.sum_eq_zero
      intro i _
      rw [hzero i, mul_zero]
    have hmap : (l.map (fun x => sqDist x m)) = l.map (fun x => sqDist x c + ((∑ i, 2 * (c i - m i) * (x i - c i)) + sqDist c m)) := by
      apply List.map_congr_left
      intro x _
      exact key x
    rw [hmap, List.sum_map_add, List.sum_map_add, hcross]
    simp
  rw [e]
  have : 0 ≤ sqDist c m := Finset.sum_nonneg fun i _ => mul_self_nonneg _
  have : 0 ≤ (l.length : ℝ) * sqDist c m := mul_nonneg (Nat.cast_nonneg _) this
  linarith

/-- **C25** One pass of the algorithm (new means, new labels) never increases the objective, as long as no cluster
becomes empty. -/
theorem C25_objective_decreases (data : List (Vec ℝ d)) (means means' : List (Vec ℝ d)) (hne : means ≠ [])
    (hnew : newMeans data (data.map (assign sqDist (means.map some))) means.length = means'.map some) :
    objective data (data.map (assign sqDist (means'.map some))) (fun k => means'.getD k 0) ≤
      objective data (data.map (assign sqDist (means.map some))) (fun k => means.getD k 0) := by
  have hlen : means'.length = means.length := by
    have := congrArg List.length hnew
    rw [newMeans_length, List.length_map] at this
    exact this.symm
  have hne' : means' ≠ [] := by
    intro h; rw [h] at hlen; exact hne (List.eq_nil_of_length_eq_zero hlen.symm)
  have near : ∀ (ms : List (Vec ℝ d)), ms ≠ [] → ∀ v, assign sqDist (ms.map some) v < ms.length ∧
      ∀ j < ms.length, sqDist v (ms.getD (assign sqDist (ms.map some) v) 0) ≤ sqDist v (ms.getD j 0) := by
    intro ms hms v
    rcases ms with _ | ⟨m, ms⟩
    · exact absurd rfl hms
    · obtain ⟨m', h1, h2⟩ := assign_nearest sqDist m (ms.map some) v
      rw [← List.map_cons] at h1 h2
      generalize hk : assign sqDist ((m :: ms).map some) v = k at *
      rw [List.getElem?_map] at h1
      rcases hk2 : (m :: ms)[k]? with _ | mk
      · rw [hk2] at h1; simp at h1
      · rw [hk2] at h1
        simp only [Option.map_some, Option.some.injEq] at h1
        subst h1
        refine ⟨(List.getElem?_eq_some_iff.mp hk2).1, fun j hj => ?_⟩
        have hj2 : (m :: ms)[j]? = some ((m :: ms)[j]) := List.getElem?_eq_getElem hj
        have := (h2 j ((m :: ms)[j]) (by rw [List.getElem?_map, hj2]; rfl)).1
        rw [List.getD_eq_getElem?_getD, List.getD_eq_getElem?_getD, hk2, hj2]
        exact this
  set labels := data.map (assign sqDist (means.map some)) with hlab
  have hll : data.length = labels.length := by rw [hlab, List.length_map]
  -- relabelling does not increase
  have step2 : objective data (data.map (assign sqDist (means'.map some))) (fun k => means'.getD k 0) ≤
      objective data labels (fun k => means'.getD k 0) := by
    unfold objective
    rw [hlab]
    have hb : ∀ v ∈ data, assign sqDist (means.map some) v < means'.length := by
      intro v _; rw [hlen]; exact (near means hne v).1
    clear hll hlab hnew
    induction data with
    | nil => simp
    | cons x xs ih =>
      simp only [List.map_cons, List.zip_cons_cons, List.sum_cons]
      have h1 := (near means' hne' x).2 _ (hb x (by simp))
      have h2 := ih (fun v hv => hb v (by simp [hv]))
      exact add_le_add h1 h2
  refine step2.trans ?_
  -- moving the centroids does not increase
  unfold objective
  have hbound : ∀ x ∈ data.zip labels, x.2 < means.length := by
    intro x hx
    have := (List.of_mem_zip hx).2
    rw [hlab, List.mem_map] at this
    obtain ⟨v, _, hv⟩ := this
    rw [← hv]; exact (near means hne v).1
  rw [sum_group (data.zip labels) (fun x k => sqDist x (means'.getD k 0)) means.length hbound,
    sum_group (data.zip labels) (fun x k => sqDist x (means.getD k 0)) means.length hbound]
  apply List.sum_le_sum
  intro k hk
  rw [List.mem_range] at hk
  have hmean := C25_centroid_is_mean data labels means.length hll k hk
  rw [hnew, List.getElem?_map] at hmean
  have hk' : k < means'.length := by omega
  rw [List.getElem?_eq_getElem hk'] at hmean
  simp only [Option.map_some, Option.some.injEq] at hmean
  have hm : ∀ c : Vec ℝ d, (((data.zip labels).filter (fun x => decide (x.2 = k))).map (fun x => sqDist x.1 c)).sum =
      ((members data labels k).map (fun x => sqDist x c)).sum := by
    intro c; unfold members; rw [List.map_map]; rfl
  rw [hm, hm]
  split_ifs at hmean with hnil
  rw [Option.some.injEq] at hmean
  have hg : means'.getD k 0 = ((members data labels k).length : ℝ)⁻¹ • (members data labels k).sum := by
    rw [List.getD_eq_getElem?_getD, List.getElem?_eq_getElem hk', ← hmean]; rfl
  rw [hg]
  exact sum_sq_mean_le _ hnil _

/-- Non-vacuity: data 0, 2, 10 with centroids 0 and 9 get the centroids 1 and 10, no cluster is empty. -/
example : newMeans (d := 1) [fun _ => 0, fun _ => 2, fun _ => 10]
      (([fun _ => 0, fun _ => 2, fun _ => 10] : List (Vec ℝ 1)).map (assign sqDist ([fun _ => 0, fun _ => 9].map some))) 2 =
    [fun _ => 1, fun _ => 10].map some := by
  have : (([fun _ => 0, fun _ => 2, fun _ => 10] : List (Vec ℝ 1)).map (assign sqDist ([fun _ => 0, fun _ => 9].map some))) = [0, 0, 1] := by
    simp [assign, assignLoop, distO, ltO, sqDist]
    norm_num
  rw [this]
  simp [newMeans, accumulate]
  ext i
  simp

/-! ### Empty clusters -/

/-- **C25 (refuted in general)** If the first cluster becomes empty, its centroid is NaN and every vector gets its label,
although another centroid exists. Here: data 0 and 1, initial centroids 5 and 0. -/
theorem C25_empty_cluster_refuted :
    let data : List (Vec ℝ 1) := [fun _ => 0, fun _ => 1]
    let r := loop sqDist data 1 [some (fun _ => 5), some (fun _ => 0)] (data.map (assign sqDist [some (fun _ => 5), some (fun _ => 0)]))
    r.1[0]? = some none ∧ (∃ m, r.1[1]? = some (some m)) ∧ r.2 = [0, 0] := by
  intro data r
  have hl : data.map (assign sqDist [some (fun _ => 5), some (fun _ => 0)]) = [1, 1] := by
    simp [data, assign, assignLoop, distO, ltO, sqDist]
    norm_num
  have hm : newMeans data [1, 1] 2 = [none, some (fun _ => 1 / 2)] := by
    simp [newMeans, accumulate, data]
    ext i
    simp
  have hr : r = (newMeans data [1, 1] 2, data.map (assign sqDist (newMeans data [1, 1] 2))) := by
    change loop sqDist data 1 _ _ = _
    rw [hl]
    unfold loop
    dsimp only
    split_ifs
    · rfl
    · rfl
  rw [hr, hm]
  refine ⟨rfl, ⟨_, rfl⟩, ?_⟩
  simp [data, assign_nan]

/-! ### Seeding -/

theorem pick_spec (ds : List ℝ) (hds : ∀ x ∈ ds, 0 ≤ x) (r : ℝ) (hr : 0 < r) (hsum : r ≤ ds.sum) :
    ∃ x, ds[pick ds r]? = some x ∧ 0 < x := by
  induction ds generalizing r with
  | nil => simp at hsum; linarith
  | cons x xs ih =>
    rcases xs with _ | ⟨y, ys⟩
    · exact ⟨x, rfl, by simpa using lt_of_lt_of_le hr hsum⟩
    · unfold pick
      split_ifs with hc
      · exact ⟨x, rfl, lt_of_lt_of_le hr hc⟩
      · rw [not_le] at hc
        obtain ⟨z, hz, hp⟩ := ih (fun w hw => hds w (by simp [List.mem_cons] at hw ⊢; tauto)) (r - x) (by linarith)
          (by rw [List.sum_cons] at hsum; linarith)
        exact ⟨z, by simpa using hz, hp⟩

theorem pick_lt (ds : List ℝ) (h : ds ≠ []) (r : ℝ) : pick ds r < ds.length := by
  induction ds generalizing r with
  | nil => exact absurd rfl h
  | cons x xs ih =>
    rcases xs with _ | ⟨y, ys⟩
    · simp [pick]
    · unfold pick
      split_ifs
      · simp
      · have := ih (by simp) (r - x)
        simpa using this

/-- **C25** Seeding returns at least one and at most the requested number of centroids, all taken from the data, for
all random draws. -/
theorem C25_seeds_from_data (dist : Vec ℝ d → Vec ℝ d → ℝ) (data : List (Vec ℝ d)) (first : ℕ) (hfirst : first < data.length)
    (draws : List (ℝ → ℝ)) :
    (∀ s ∈ seeds dist data first draws, s ∈ data) ∧ 1 ≤ (seeds dist data first draws).length ∧
      (seeds dist data first draws).length ≤ draws.length + 1 := by
  have key : ∀ (draws : List (ℝ → ℝ)) (ds : List ℝ), (∀ s ∈ seedLoop dist data draws ds, s ∈ data) ∧
      (seedLoop dist data draws ds).length ≤ draws.length := by
    intro draws
    induction draws with
    | nil => intro ds; simp [seedLoop]
    | cons r rs ih =>
      intro ds
      unfold seedLoop
      dsimp only
      split_ifs
      · simp
      · rcases hp : data[pick ds (r ds.sum)]? with _ | new
        · simp
        · obtain ⟨h1, h2⟩ := ih (List.zipWith min ds (data.map (fun x => dist x new)))
          dsimp only
          refine ⟨?_, by simp only [List.length_cons]; omega⟩
          intro s hs
          rcases List.mem_cons.mp hs with rfl | hs
          · exact List.mem_of_getElem? hp
          · exact h1 s hs
  unfold seeds
  rw [List.getElem?_eq_getElem hfirst]
  dsimp only
  obtain ⟨h1, h2⟩ := key draws (data.map (fun x => dist x data[first]))
  refine ⟨?_, by simp, by simp only [List.length_cons]; omega⟩
  intro s hs
  rcases List.mem_cons.mp hs with rfl | hs
  · exact List.getElem_mem hfirst
  · exact h1 s hs

/-- The distance list belongs to the seeds chosen so far. -/
def Covers (dist : Vec ℝ d → Vec ℝ d → ℝ) (data chosen : List (Vec ℝ d)) (ds : List ℝ) : Prop :=
  ds.length = data.length ∧ ∀ (i : ℕ) x δ, data[i]? = some x → ds[i]? = some δ →
    (∀ s ∈ chosen, δ ≤ dist x s) ∧ ∃ s ∈ chosen, δ = dist x s

theorem covers_step (dist : Vec ℝ d → Vec ℝ d → ℝ) (data chosen : List (Vec ℝ d)) (ds : List ℝ) (new : Vec ℝ d)
    (h : Covers dist data chosen ds) :
    Covers dist data (chosen ++ [new]) (List.zipWith min ds (data.map (fun x => dist x new))) := by
  obtain ⟨h1, h2⟩ := h
  refine ⟨by simp [h1], ?_⟩
  intro i x δ hx hδ
  rw [List.getElem?_zipWith, List.getElem?_map, hx] at hδ
  rcases hd : ds[i]? with _ | δ0
  · rw [hd] at hδ; simp at hδ
  · rw [hd] at hδ
    simp only [Option.map_some, Option.some.injEq] at hδ
    obtain ⟨a, s, hs, b⟩ := h2 i x δ0 hx hd
    subst hδ
    refine ⟨?_, ?_⟩
    · intro s' hs'
      rcases List.mem_append.mp hs' with hs' | hs'
      · exact (min_le_left _ _).trans (a s' hs')
      · rw [List.mem_singleton] at hs'; subst hs'; exact min_le_right _ _
    · rcases min_choice δ0 (dist x new) with hm | hm
      · exact ⟨s, by simp [hs], by rw [hm, b]⟩
      · exact ⟨new, by simp, hm⟩

/-- **C25** For a distance that is non-negative and zero exactly between equal vectors, and draws from `(0, sum]`: the
seeds are pairwise different, and if fewer than requested are returned then every vector of the data is one of
them. -/
theorem C25_seeds_distinct (dist : Vec ℝ d → Vec ℝ d → ℝ) (hd0 : ∀ x y, 0 ≤ dist x y) (hd : ∀ x y, dist x y = 0 ↔ x = y)
    (data : List (Vec ℝ d)) (first : ℕ) (hfirst : first < data.length) (draws : List (ℝ → ℝ))
    (hdraw : ∀ r ∈ draws, ∀ s, 0 < s → 0 < r s ∧ r s ≤ s) :
    (seeds dist data first draws).Nodup ∧
      ((seeds dist data first draws).length < draws.length + 1 → ∀ x ∈ data, x ∈ seeds dist data first draws) := by
  have key : ∀ (draws : List (ℝ → ℝ)) (chosen : List (Vec ℝ d)) (ds : List ℝ), (∀ r ∈ draws, ∀ s, 0 < s → 0 < r s ∧ r s ≤ s) →
      Covers dist data chosen ds → chosen.Nodup →
      (chosen ++ seedLoop dist data draws ds).Nodup ∧
      ((seedLoop dist data draws ds).length < draws.length → ∀ x ∈ data, x ∈ chosen ++ seedLoop dist data draws ds) := by
    intro draws
    induction draws with
    | nil => intro chosen ds _ _ hn; simp [seedLoop, hn]
    | cons r rs ih =>
      intro chosen ds hr hc hn
      have hnonneg : ∀ δ ∈ ds, 0 ≤ δ := by
        intro δ hδ
        obtain ⟨i, hi⟩ := List.mem_iff_getElem?.mp hδ
        have hil : i < ds.length := (List.getElem?_eq_some_iff.mp hi).1
        rw [hc.1] at hil
        obtain ⟨-, s, -, e⟩ := hc.2 i data[i] δ (List.getElem?_eq_getElem hil) hi
        rw [e]; exact hd0 _ _
      unfold seedLoop
      dsimp only
      split_ifs with hsum
      · refine ⟨by simpa using hn, fun _ x hx => ?_⟩
        rw [List.append_nil]
        obtain ⟨i, hi⟩ := List.mem_iff_getElem?.mp hx
        have hil : i < data.length := (List.getElem?_eq_some_iff.mp hi).1
        have hil' : i < ds.length := by rw [hc.1]; exact hil
        have hall : ∀ δ ∈ ds, δ = 0 := by
          have h0 : ds.sum = 0 := le_antisymm hsum (List.sum_nonneg hnonneg)
          clear hsum hil' hil hi hc
          induction ds with
          | nil => simp
          | cons a as iha =>
            have ha := hnonneg a (by simp)
            have has : 0 ≤ as.sum := List.sum_nonneg (fun y hy => hnonneg y (by simp [hy]))
            rw [List.sum_cons] at h0
            intro δ hδ
            rcases List.mem_cons.mp hδ with rfl | hδ
            · linarith
            · exact iha (fun y hy => hnonneg y (by simp [hy])) (by linarith) δ hδ
        obtain ⟨-, s, hs, e⟩ := hc.2 i x ds[i] hi (List.getElem?_eq_getElem hil')
        rw [hall _ (List.getElem_mem hil')] at e
        rw [(hd x s).mp e.symm]; exact hs
      · rw [not_le] at hsum
        obtain ⟨hr1, hr2⟩ := hr r (by simp) _ hsum
        obtain ⟨δ, hδ, hpos⟩ := pick_spec ds hnonneg (r ds.sum) hr1 hr2
        have hil : pick ds (r ds.sum) < data.length := by
          rw [← hc.1]; exact (List.getElem?_eq_some_iff.mp hδ).1
        rw [List.getElem?_eq_getElem hil]
        dsimp only
        set new := data[pick ds (r ds.sum)] with hnew
        have hnotin : new ∉ chosen := by
          intro hin
          have := (hc.2 _ new δ (List.getElem?_eq_getElem hil) hδ).1 new hin
          rw [(hd new new).mpr rfl] at this
          linarith
        obtain ⟨h1, h2⟩ := ih (chosen ++ [new]) _ (fun r' hr' => hr r' (by simp [hr'])) (covers_step dist data chosen ds new hc)
          (by rw [List.nodup_append]; exact ⟨hn, by simp, by intro a ha b hb; rw [List.mem_singleton] at hb; rintro rfl; exact hnotin (hb ▸ ha)⟩)
        rw [List.append_assoc, List.singleton_append] at h1 h2
        refine ⟨h1, fun hlt => h2 ?_⟩
        simp only [List.length_cons] at hlt; omega
  unfold seeds
  rw [List.getElem?_eq_getElem hfirst]
  dsimp only
  have h := key draws [data[first]] (data.map (fun x => dist x data[first])) hdraw
    ⟨by simp, by
      intro i x δ hx hδ
      rw [List.getElem?_map, hx] at hδ
      simp only [Option.map_some, Option.some.injEq] at hδ
      subst hδ
      exact ⟨by simp, data[first], by simp, rfl⟩⟩ (by simp)
  refine ⟨h.1, fun hlt => h.2 ?_⟩
  simp only [List.length_cons] at hlt; omega

theorem eDist_spec (x y : Vec ℝ d) : 0 ≤ eDist x y ∧ (eDist x y = 0 ↔ x = y) := by
  refine ⟨Real.sqrt_nonneg _, ?_⟩
  unfold eDist
  rw [Real.sqrt_eq_zero (Finset.sum_nonneg fun i _ => mul_self_nonneg _),
    Finset.sum_eq_zero_iff_of_nonneg (fun i _ => mul_self_nonneg _)]
  constructor
  · intro h
    ext i
    have := h i (Finset.mem_univ i)
    rw [mul_self_eq_zero] at this
    simpa [sub_eq_zero] using this
  · rintro rfl i _
    simp

/-- **C25 (refuted for a draw of exactly 0)** A draw of 0, which the random generator may return, selects the first vector
even if it is already a seed: the seeds are not distinct, and the second of the two clusters stays empty. -/
theorem C25_zero_draw_refuted :
    ∃ s : Vec ℝ 1, seeds eDist [fun _ => 0, fun _ => 1] 0 [fun _ => 0] = [s, s] := by
  refine ⟨fun _ => 0, ?_⟩
  simp [seeds, seedLoop, eDist, pick]

/-! ### When the passes end -/

/-- The centroids have hardly moved: all are numbers, and the mean of the distances between old and new ones is below 1/10000. -/
def Settled (dist : Vec ℝ d → Vec ℝ d → ℝ) (old new : List (Centroid d)) : Prop :=
  ∃ o n : List (Vec ℝ d), old = o.map some ∧ new = n.map some ∧ (List.zipWith dist o n).sum / o.length < 1 / 10000

/-- One pass: new centroids for the labels, new labels for the centroids. -/
noncomputable def onePass (dist : Vec ℝ d → Vec ℝ d → ℝ) (data : List (Vec ℝ d)) (s : List (Centroid d) × List ℕ) : List (Centroid d) × List ℕ :=
  (newMeans data s.2 s.1.length, data.map (assign dist (newMeans data s.2 s.1.length)))

theorem diffError_fold (dist : Vec ℝ d → Vec ℝ d → ℝ) (l : List (Centroid d × Centroid d)) (a : Option ℝ) (r : ℝ) :
    (l.map (fun x => x.1.bind (fun o => distO dist o x.2))).foldl (fun s x => s.bind (fun a => x.map (a + ·))) a = some r ↔
      ∃ (l' : List (Vec ℝ d × Vec ℝ d)) (b : ℝ), a = some b ∧ l = l'.map (fun x => (some x.1, some x.2)) ∧ r = b + (l'.map fun x => dist x.1 x.2).sum := by
  induction l generalizing a with
  | nil =>
    constructor
    · intro h
      exact ⟨[], r, h, rfl, by simp⟩
    · rintro ⟨l', b, rfl, h2, h3⟩
      have : l' = [] := by simpa using h2.symm
      subst this
      simpa using h3.symm
  | cons x l ih =>
    rw [List.map_cons, List.foldl_cons, ih]
    obtain ⟨x1, x2⟩ := x
    constructor
    · rintro ⟨l', b, h1, h2, h3⟩
      cases a with
      | none => simp at h1
      | some a =>
        cases x1 with
        | none => simp at h1
        | some x1 =>
          cases x2 with
          | none => simp [distO] at h1
          | some x2 =>
            simp only [Option.bind_some, distO, Option.map_some, Option.some.injEq] at h1
            refine ⟨(x1, x2) :: l', a, rfl, by simp [h2], ?_⟩
            rw [h3, ← h1, List.map_cons, List.sum_cons]
            ring
    · rintro ⟨l', b, rfl, h2, h3⟩
      cases l' with
      | nil => simp at h2
      | cons y l' =>
        simp only [List.map_cons, List.cons.injEq, Prod.mk.injEq] at h2
        obtain ⟨⟨rfl, rfl⟩, rfl⟩ := h2
        refine ⟨l', b + dist y.1 y.2, by simp [distO], rfl, ?_⟩
        rw [h3, List.map_cons, List.sum_cons]
        ring

theorem settled_iff (dist : Vec ℝ d → Vec ℝ d → ℝ) (old new : List (Centroid d)) (h : new.length = old.length) :
    ltO (diffError dist old new) (some (1e-2 ^ 2)) ↔ Settled dist old new := by
  constructor
  · intro hl
    unfold diffError at hl
    rcases hf : ((old.zip new).map (fun x => x.1.bind (fun o => distO dist o x.2))).foldl (fun s x => s.bind (fun a => x.map (a + ·))) (some 0) with _ | r
    · rw [hf] at hl
      simp [ltO] at hl
    · rw [hf] at hl
      obtain ⟨l', b, hb, h2, h3⟩ := (diffError_fold dist _ _ _).1 hf
      obtain rfl : (0 : ℝ) = b := Option.some.inj hb
      have e1 : old = (l'.map Prod.fst).map some := by
        have := congrArg (List.map Prod.fst) h2
        rw [List.map_fst_zip (by omega)] at this
        rw [this]
        simp
      have e2 : new = (l'.map Prod.snd).map some := by
        have := congrArg (List.map Prod.snd) h2
        rw [List.map_snd_zip (by omega)] at this
        rw [this]
        simp
      refine ⟨l'.map Prod.fst, l'.map Prod.snd, e1, e2, ?_⟩
      have e3 : List.zipWith dist (l'.map Prod.fst) (l'.map Prod.snd) = l'.map fun x => dist x.1 x.2 := by
        rw [List.zipWith_map]
        clear h2 h3 e1 e2 hf hl
        induction l' with
        | nil => rfl
        | cons x l ih => simp
      have hl' : r / (old.length : ℝ) < 1e-2 ^ 2 := hl
      rw [e3]
      rw [h3, zero_add] at hl'
      rw [e1] at hl'
      simp only [List.length_map] at hl' ⊢
      norm_num at hl' ⊢
      exact hl'
  · rintro ⟨o, n, rfl, rfl, hs⟩
    simp only [List.length_map] at h
    have hf := (diffError_fold dist ((o.map some).zip (n.map some)) (some 0) (List.zipWith dist o n).sum).2
      ⟨o.zip n, 0, rfl, by rw [List.zip_map]; rfl, by rw [zero_add, List.zip, List.map_zipWith]⟩
    unfold diffError
    rw [hf]
    show (List.zipWith dist o n).sum / ((o.map some).length : ℝ) < 1e-2 ^ 2
    rw [List.length_map]
    norm_num at hs ⊢
    exact hs

theorem loop_passes (dist : Vec ℝ d → Vec ℝ d → ℝ) (data : List (Vec ℝ d)) (i : ℕ) (s : List (Centroid d) × List ℕ) :
    ∃ n ≤ i, loop dist data i s.1 s.2 = (onePass dist data)^[n] s ∧
      (n < i → 0 < n ∧ Settled dist ((onePass dist data)^[n - 1] s).1 ((onePass dist data)^[n] s).1) ∧
      ∀ m, 0 < m → m < n → ¬ Settled dist ((onePass dist data)^[m - 1] s).1 ((onePass dist data)^[m] s).1 := by
  induction i generalizing s with
  | zero => exact ⟨0, le_rfl, rfl, fun h => by omega, fun m h1 h2 => by omega⟩
  | succ i ih =>
    have hlen : (newMeans data s.2 s.1.length).length = s.1.length := newMeans_length _ _ _
    by_cases h : Settled dist s.1 (onePass dist data s).1
    · refine ⟨1, by omega, ?_, fun _ => ⟨by omega, h⟩, fun m h1 h2 => by omega⟩
      unfold loop
      dsimp only
      rw [if_pos ((settled_iff dist _ _ hlen).2 h)]
      rfl
    · obtain ⟨n, hn, h1, h2, h3⟩ := ih (onePass dist data s)
      refine ⟨n + 1, by omega, ?_, fun hlt => ⟨by omega, ?_⟩, fun m hm1 hm2 => ?_⟩
      · rw [Function.iterate_succ_apply, ← h1]
        rw [loop]
        rw [if_neg (fun hc => h ((settled_iff dist _ _ hlen).1 hc))]
        rfl
      · obtain ⟨hpos, hs⟩ := h2 (by omega)
        obtain ⟨k, rfl⟩ : ∃ k, n = k + 1 := ⟨n - 1, by omega⟩
        simpa [Function.iterate_succ_apply] using hs
      · rcases m with _ | _ | m
        · omega
        · exact h
        · have := h3 (m + 1) (by omega) (by omega)
          simpa [Function.iterate_succ_apply] using this

/-- **C25** The result is that of the first pass that moved the centroids by less than 1/10000 on average, or of the hundredth. -/
theorem C25_passes (dist : Vec ℝ d → Vec ℝ d → ℝ) (data : List (Vec ℝ d)) (start : List (Vec ℝ d)) :
    let s := (start.map some, data.map (assign dist (start.map some)))
    ∃ n ≤ 100, kMeansFrom dist data start = (onePass dist data)^[n] s ∧
      (n < 100 → 0 < n ∧ Settled dist ((onePass dist data)^[n - 1] s).1 ((onePass dist data)^[n] s).1) ∧
      ∀ m, 0 < m → m < n → ¬ Settled dist ((onePass dist data)^[m - 1] s).1 ((onePass dist data)^[m] s).1 :=
  loop_passes dist data 100 (start.map some, data.map (assign dist (start.map some)))

/-- The hypotheses are met by the Euclidean distance and a draw of half the sum; here the two seeds are 0 and 1. -/
example : (∀ x y : Vec ℝ 1, 0 ≤ eDist x y) ∧ (∀ x y : Vec ℝ 1, eDist x y = 0 ↔ x = y) ∧ (∀ s : ℝ, 0 < s → 0 < s / 2 ∧ s / 2 ≤ s) ∧
    seeds (d := 1) eDist [fun _ => 0, fun _ => 1] 0 [fun s => s / 2] = [fun _ => 0, fun _ => 1] := by
  refine ⟨fun x y => (eDist_spec x y).1, fun x y => (eDist_spec x y).2, fun s hs => ⟨by linarith, by linarith⟩, ?_⟩
  simp [seeds, seedLoop, eDist, pick]
  norm_num

end Ubitrack.KMeans
