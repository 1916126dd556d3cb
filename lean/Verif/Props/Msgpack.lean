import Verif.Proofs.Msgpack
import Mathlib.Tactic.FinCases

/-!
# C17: MessagePack conversion
-/

namespace Ubitrack.Msgpack

variable {K : Type}

theorem lossless_num (x : K) : Lossless (.ok (packNum x)) getNum x :=
  ⟨_, .num x, rfl, parses_num x, rfl⟩

theorem vec_obj {n : ℕ} (v : Vec K n) :
    Parses (packVec packNum v) (.arr (List.ofFn fun i => Obj.num (v i))) ∧
    convertVec getNum (.arr (List.ofFn fun i => Obj.num (v i))) = .ok v :=
  ⟨parses_vec packNum .num parses_num v, convertVec_ofFn getNum .num (fun _ => rfl) v⟩

theorem vecInt_obj {n : ℕ} (v : Vec ℕ n) :
    Parses (K := K) (packVec packInt v) (.arr (List.ofFn fun i => Obj.int (v i))) ∧
    convertVec (K := K) getInt (.arr (List.ofFn fun i => Obj.int (v i))) = .ok v :=
  ⟨parses_vec packInt .int parses_int v, convertVec_ofFn getInt .int (fun _ => rfl) v⟩

theorem quat_obj (q : Quat K) :
    Parses (packQuat q) (.arr (List.ofFn fun i => Obj.num (q.toVector i))) ∧
    convertQuat (.arr (List.ofFn fun i => Obj.num (q.toVector i))) = .ok q := by
  refine ⟨(vec_obj q.toVector).1, ?_⟩
  unfold convertQuat
  rw [(vec_obj q.toVector).2]
  rfl

theorem mat_obj {n : ℕ} (A : Mat K n n) (h : n ≠ 0) :
    ∃ ts, packMat packNum A = .ok ts ∧ Parses ts (.arr (entries .num A)) ∧
      convertMat getNum (.arr (entries Obj.num A)) = .ok A := by
  have h0 : n * n ≠ 0 := Nat.mul_ne_zero h h
  obtain ⟨ts, h1, h2⟩ := parses_mat packNum .num parses_num A h0
  exact ⟨ts, h1, h2, convertMat_entries getNum .num (fun _ => rfl) A h0 (Or.inl rfl)⟩

/-- Parsing an array built from a few already understood parts. -/
theorem parses_parts (l : List (List (Tok K) × Obj K)) (h : ∀ x ∈ l, Parses x.1 x.2) :
    Parses (.arr l.length :: l.flatMap (·.1)) (.arr (l.map (·.2))) :=
  parses_arr (·.1) (·.2) l h

theorem lossless_pose (p : Pose K) : Lossless (.ok (packPose p)) convertPose p := by
  have hq := quat_obj p.rotation
  have hv := vec_obj p.translation
  refine ⟨_, .arr [.arr (List.ofFn fun i => Obj.num (p.rotation.toVector i)),
      .arr (List.ofFn fun i => Obj.num (p.translation i))], rfl, ?_, ?_⟩
  · have := parses_parts [(packQuat p.rotation, _), (packVec packNum p.translation, _)]
      (by simp only [List.mem_cons, List.not_mem_nil, or_false, forall_eq_or_imp, forall_eq]
          exact ⟨hq.1, hv.1⟩)
    simpa [packPose] using this
  · show (do
      let quat ← convertQuat (.arr (List.ofFn fun i => Obj.num (p.rotation.toVector i)))
      let vec ← convertVec getNum (.arr (List.ofFn fun i => Obj.num (p.translation i)))
      Except.ok (⟨quat, vec⟩ : Pose K)) = _
    rw [hq.2, hv.2]
    rfl

theorem lossless_errorVector {n : ℕ} (hn : n ≠ 0) (v : ErrorVector K n) :
    Lossless (packErrorVector v) convertErrorVector v := by
  have hv := vec_obj v.value
  obtain ⟨c, hc, hp, hm⟩ := mat_obj v.covariance hn
  refine ⟨.arr 2 :: (packVec packNum v.value ++ c), .arr [.arr (List.ofFn fun i => Obj.num (v.value i)),
    .arr (entries .num v.covariance)], ?_, ?_, ?_⟩
  · unfold packErrorVector; rw [hc]; rfl
  · have := parses_parts [(packVec packNum v.value, _), (c, _)]
      (by simp only [List.mem_cons, List.not_mem_nil, or_false, forall_eq_or_imp, forall_eq]
          exact ⟨hv.1, hp⟩)
    simpa using this
  · show (do
      let vec ← convertVec getNum (.arr (List.ofFn fun i => Obj.num (v.value i)))
      let cov ← convertMat getNum (.arr (entries Obj.num v.covariance))
      Except.ok (⟨vec, cov⟩ : ErrorVector K n)) = _
    rw [hv.2, hm]
    rfl

theorem lossless_errorPose (v : ErrorPose K) : Lossless (packErrorPose v) convertErrorPose v := by
  have hq := quat_obj v.rotation
  have hv := vec_obj v.translation
  obtain ⟨c, hc, hp, hm⟩ := mat_obj v.covariance (by decide)
  refine ⟨.arr 3 :: (packQuat v.rotation ++ packVec packNum v.translation ++ c),
    .arr [.arr (List.ofFn fun i => Obj.num (v.rotation.toVector i)),
      .arr (List.ofFn fun i => Obj.num (v.translation i)), .arr (entries .num v.covariance)], ?_, ?_, ?_⟩
  · unfold packErrorPose; rw [hc]; rfl
  · have := parses_parts [(packQuat v.rotation, _), (packVec packNum v.translation, _), (c, _)]
      (by simp only [List.mem_cons, List.not_mem_nil, or_false, forall_eq_or_imp, forall_eq]
          exact ⟨hq.1, hv.1, hp⟩)
    simpa using this
  · show (do
      let quat ← convertQuat (.arr (List.ofFn fun i => Obj.num (v.rotation.toVector i)))
      let vec ← convertVec getNum (.arr (List.ofFn fun i => Obj.num (v.translation i)))
      let cov ← convertMat getNum (.arr (entries Obj.num v.covariance))
      Except.ok (⟨⟨quat, vec⟩, cov⟩ : ErrorPose K)) = _
    rw [hq.2, hv.2, hm]
    rfl

theorem lossless_intrinsics (v : CameraIntrinsics K) :
    Lossless (packIntrinsics v) convertIntrinsics v := by
  have hd := vecInt_obj (K := K) v.dimension
  have hr := vec_obj v.radialParams
  have ht := vec_obj v.tangentialParams
  obtain ⟨c, hc, hp, hm⟩ := mat_obj v.matrix (by decide)
  refine ⟨.arr 6 :: (packInt v.calibType ++ packVec packInt v.dimension ++ c ++
      packInt v.radialSize ++ packVec packNum v.radialParams ++ packVec packNum v.tangentialParams),
    .arr [.int v.calibType, .arr (List.ofFn fun i => Obj.int (v.dimension i)),
      .arr (entries .num v.matrix), .int v.radialSize,
      .arr (List.ofFn fun i => Obj.num (v.radialParams i)),
      .arr (List.ofFn fun i => Obj.num (v.tangentialParams i))], ?_, ?_, ?_⟩
  · unfold packIntrinsics; rw [hc]; rfl
  · have := parses_parts [(packInt v.calibType, _), (packVec packInt v.dimension, _), (c, _),
      (packInt v.radialSize, _), (packVec packNum v.radialParams, _),
      (packVec packNum v.tangentialParams, _)]
      (by simp only [List.mem_cons, List.not_mem_nil, or_false, forall_eq_or_imp, forall_eq]
          exact ⟨parses_int _, hd.1, hp, parses_int _, hr.1, ht.1⟩)
    simpa [packInt] using this
  · show (do
      let ct ← getInt (K := K) (.int v.calibType)
      let dim ← convertVec (K := K) getInt (.arr (List.ofFn fun i => Obj.int (v.dimension i)))
      let mat ← convertMat getNum (.arr (entries Obj.num v.matrix))
      let rs ← getInt (K := K) (.int v.radialSize)
      let rp ← convertVec getNum (.arr (List.ofFn fun i => Obj.num (v.radialParams i)))
      let tp ← convertVec getNum (.arr (List.ofFn fun i => Obj.num (v.tangentialParams i)))
      Except.ok (⟨ct, dim, mat, rs, rp, tp⟩ : CameraIntrinsics K)) = _
    rw [hd.2, hm, hr.2, ht.2]
    rfl

theorem lossless_meas {α : Type} (pe : α → Except Err (List (Tok K))) (ce : Obj K → Except Err α)
    (t : ℕ) (x : α) (h : Lossless (pe x) ce x) :
    Lossless (packMeas pe ⟨t, some x⟩) (convertMeas ce) ⟨t, some x⟩ := by
  obtain ⟨c, o, h1, h2, h3⟩ := h
  refine ⟨.arr 2 :: (packInt t ++ c), .arr [.int t, o], ?_, ?_, ?_⟩
  · unfold packMeas; simp only; rw [h1]; rfl
  · have := parses_parts [(packInt t, _), (c, _)]
      (by simp only [List.mem_cons, List.not_mem_nil, or_false, forall_eq_or_imp, forall_eq]
          exact ⟨parses_int _, h2⟩)
    simpa [packInt] using this
  · show (do
      let value ← ce o
      let ts ← getInt (K := K) (.int t)
      Except.ok (⟨ts, some value⟩ : Meas α)) = _
    rw [h3]
    rfl

/-- Reading back what was packed, with anything behind it in the stream and whatever the target
held before, yields the packed value. -/
def RoundTrips {α : Type} (packed : Except Err (List (Tok K))) (ce : Obj K → Except Err α)
    (x : α) : Prop :=
  ∃ ts, packed = .ok ts ∧
    ∀ (rest : List (Tok K)) (target : α), readInto (fun o _ => ce o) (ts ++ rest) target = .ok x

theorem roundTrips_of_lossless {α : Type} {packed : Except Err (List (Tok K))}
    {ce : Obj K → Except Err α} {x : α} (h : Lossless packed ce x) : RoundTrips packed ce x := by
  obtain ⟨ts, o, h1, h2, h3⟩ := h
  refine ⟨ts, h1, fun rest target => ?_⟩
  unfold readInto
  rw [h2 _ rest (by simp)]
  exact h3

/-- **C17** Vectors, quaternions, poses, error vectors, error poses and camera intrinsics survive
packing and reading back. -/
theorem C17_values_roundtrip :
    (∀ (n : ℕ) (v : Vec K n), RoundTrips (.ok (packVec packNum v)) (convertVec getNum) v) ∧
    (∀ q : Quat K, RoundTrips (.ok (packQuat q)) convertQuat q) ∧
    (∀ p : Pose K, RoundTrips (.ok (packPose p)) convertPose p) ∧
    (∀ (n : ℕ) (_ : 0 < n) (v : ErrorVector K n),
      RoundTrips (packErrorVector v) convertErrorVector v) ∧
    (∀ p : ErrorPose K, RoundTrips (packErrorPose p) convertErrorPose p) ∧
    (∀ c : CameraIntrinsics K, RoundTrips (packIntrinsics c) convertIntrinsics c) :=
  ⟨fun _ v => roundTrips_of_lossless ⟨_, _, rfl, (vec_obj v).1, (vec_obj v).2⟩,
   fun q => roundTrips_of_lossless ⟨_, _, rfl, (quat_obj q).1, (quat_obj q).2⟩,
   fun p => roundTrips_of_lossless (lossless_pose p),
   fun _ h v => roundTrips_of_lossless (lossless_errorVector h.ne' v),
   fun p => roundTrips_of_lossless (lossless_errorPose p),
   fun c => roundTrips_of_lossless (lossless_intrinsics c)⟩

/-- **C17** A measurement with a payload round-trips whenever its payload does, with its time stamp;
in particular measurements of poses, error poses and camera intrinsics. -/
theorem C17_measurement_roundtrip (t : ℕ) :
    (∀ p : Pose K, RoundTrips (packMeas (fun p => .ok (packPose p)) ⟨t, some p⟩)
      (convertMeas convertPose) ⟨t, some p⟩) ∧
    (∀ p : ErrorPose K, RoundTrips (packMeas packErrorPose ⟨t, some p⟩)
      (convertMeas convertErrorPose) ⟨t, some p⟩) ∧
    (∀ c : CameraIntrinsics K, RoundTrips (packMeas packIntrinsics ⟨t, some c⟩)
      (convertMeas convertIntrinsics) ⟨t, some c⟩) :=
  ⟨fun p => roundTrips_of_lossless (lossless_meas _ _ t p (lossless_pose p)),
   fun p => roundTrips_of_lossless (lossless_meas _ _ t p (lossless_errorPose p)),
   fun c => roundTrips_of_lossless (lossless_meas _ _ t c (lossless_intrinsics c))⟩

/-- **C17 (refuted in general)** A measurement with a null payload loses its time stamp. -/
theorem C17_null_measurement_refuted (t : ℕ) :
    RoundTrips (packMeas (fun p : Pose K => .ok (packPose p)) ⟨t, none⟩) (convertMeas convertPose)
      ⟨0, none⟩ := by
  apply roundTrips_of_lossless
  exact ⟨[.nil], .nil, rfl, parses_nil, rfl⟩

/-- **C17 (refuted in general)** Fixed-size matrices round-trip exactly for the shapes M = N and
M = 1: for every other non-empty shape there is a matrix that comes back changed or makes the reader
leave the array, because the reader computes the element index as `i*M + j`. -/
theorem C17_matrix_roundtrip_iff_refuted [Nontrivial K] (m n : ℕ) (hm : 0 < m) (hn : 0 < n) :
    (∀ A : Mat K m n, RoundTrips (packMat packNum A) (convertMat getNum) A) ↔ (m = n ∨ m = 1) := by
  have h0 : m * n ≠ 0 := Nat.mul_ne_zero hm.ne' hn.ne'
  constructor
  · intro h
    by_contra hne
    push Not at hne
    obtain ⟨hmn, hm1⟩ := hne
    have hm2 : 2 ≤ m := by omega
    obtain ⟨a, b, hab⟩ := exists_pair_ne K
    -- the entry that is read for position (i, j)
    have key : ∀ A : Mat K m n, ∀ (i : Fin m) (j : Fin n),
        (at' (entries Obj.num A) ((i : ℕ) * m + j)).bind getNum = .ok (A i j) := by
      intro A i j
      obtain ⟨ts, h1, h2⟩ := h A
      obtain ⟨ts', h1', hp⟩ := parses_mat packNum Obj.num parses_num A h0
      rw [h1] at h1'
      cases h1'
      have := h2 [] A
      unfold readInto at this
      rw [hp _ [] (by simp)] at this
      simp only [convertMat, entries_length, ne_eq, not_true_eq_false, if_neg h0] at this
      exact of_collect_ok (of_collect_ok this i) j
    rcases Nat.lt_or_ge n m with hlt | hge
    · -- more rows than columns: the last row is read outside the array
      let A : Mat K m n := fun _ _ => a
      have := key A ⟨m - 1, by omega⟩ ⟨0, hn⟩
      have hbig : (entries Obj.num A).length ≤ (m - 1) * m + 0 := by
        rw [entries_length]
        have : n ≤ m - 1 := by omega
        calc m * n ≤ m * (m - 1) := Nat.mul_le_mul_left _ this
          _ = (m - 1) * m + 0 := by rw [Nat.mul_comm]; rfl
      unfold at' at this
      rw [List.getElem?_eq_none hbig] at this
      cases this
    · -- more columns than rows: entry (1, 0) is read from position (0, M)
      have hlt : m < n := by omega
      let A : Mat K m n := fun i _ => if (i : ℕ) = 0 then a else b
      have h1 := key A ⟨1, by omega⟩ ⟨0, hn⟩
      have h2 := entries_get Obj.num A ⟨0, hm⟩ ⟨m, hlt⟩
      have hidx : (((⟨1, by omega⟩ : Fin m) : ℕ) * m + ((⟨0, hn⟩ : Fin n) : ℕ)) =
          ((⟨0, hm⟩ : Fin m) : ℕ) * n + ((⟨m, hlt⟩ : Fin n) : ℕ) := by simp
      unfold at' at h1
      rw [hidx, h2] at h1
      have : (Except.ok a : Except Err K) = .ok b := by simpa [A, getNum, Except.bind] using h1
      cases this
      exact hab rfl
  · intro h A
    obtain ⟨ts, h1, h2⟩ := parses_mat packNum Obj.num parses_num A h0
    exact roundTrips_of_lossless
      ⟨ts, _, h1, h2, convertMat_entries getNum Obj.num (fun _ => rfl) A h0 h⟩

theorem assignAll_map (l pre old : List K) (h : old.length = l.length) :
    assignAll getNum (l.map Obj.num) pre.length (pre ++ old) = .ok (pre ++ l) := by
  induction l generalizing pre old with
  | nil =>
    have : old = [] := List.eq_nil_of_length_eq_zero h
    subst this
    rfl
  | cons a as ih =>
    cases old with
    | nil => simp at h
    | cons o os =>
      simp only [List.map_cons, assignAll]
      rw [if_pos (by simp)]
      simp only [getNum]
      have hs : (pre ++ o :: os).set pre.length a = (pre ++ [a]) ++ os := by
        simp
      have hl : pre.length + 1 = (pre ++ [a]).length := by simp
      rw [hs, hl, ih (pre ++ [a]) os (by simpa using h)]
      simp

theorem assignAll_short (l pre old : List K) (h : old.length < l.length) :
    assignAll getNum (l.map Obj.num) pre.length (pre ++ old) = .error .oob := by
  induction l generalizing pre old with
  | nil => simp at h
  | cons a as ih =>
    cases old with
    | nil => simp [assignAll]
    | cons o os =>
      simp only [List.map_cons, assignAll]
      rw [if_pos (by simp)]
      simp only [getNum]
      have hs : (pre ++ o :: os).set pre.length a = (pre ++ [a]) ++ os := by
        simp
      have hl : pre.length + 1 = (pre ++ [a]).length := by simp
      rw [hs, hl, ih (pre ++ [a]) os (by simpa using h)]

/-- **C17 (partial)** Dynamically sized vectors round-trip if the target already has the right size. -/
theorem C17_dynamic_vector_partial (v target : List K) (h : target.length = v.length)
    (rest : List (Tok K)) :
    readInto (convertDyn getNum) (packDyn packNum v ++ rest) target = .ok v := by
  have hp := parses_arr packNum Obj.num v (fun x _ => parses_num x)
  unfold readInto packDyn
  rw [hp _ rest (by simp)]
  have := assignAll_map v [] target h
  simpa [convertDyn] using this

/-- **C17 (refuted in general)** Reading a dynamically sized vector into a shorter target (for
example a default-constructed one) writes outside the target. -/
theorem C17_dynamic_vector_refuted (v target : List K) (h : target.length < v.length)
    (rest : List (Tok K)) :
    readInto (convertDyn getNum) (packDyn packNum v ++ rest) target = .error .oob := by
  have hp := parses_arr packNum Obj.num v (fun x _ => parses_num x)
  unfold readInto packDyn
  rw [hp _ rest (by simp)]
  have := assignAll_short v [] target h
  simpa [convertDyn] using this

/-- **C17 (refuted in general)** The alternative reader `as` for measurements fails on every packed
measurement of a pose: it takes the value from the entry that holds the time stamp. -/
theorem C17_as_measurement_refuted (t : ℕ) (p : Pose K) :
    ∃ ts, packMeas (fun p => .ok (packPose p)) ⟨t, some p⟩ = .ok ts ∧
      ∀ (target : Meas (Pose K)),
        readInto (fun o _ => asMeas convertPose o) ts target = .error .typeError := by
  obtain ⟨c, o, h1, h2, h3⟩ := lossless_pose p
  refine ⟨.arr 2 :: (packInt t ++ c), ?_, fun target => ?_⟩
  · unfold packMeas; simp only; rw [h1]; rfl
  · have := parses_parts [(packInt t, _), (c, _)]
      (by simp only [List.mem_cons, List.not_mem_nil, or_false, forall_eq_or_imp, forall_eq]
          exact ⟨parses_int _, h2⟩)
    have h4 := this (.arr 2 :: (packInt t ++ c)).length [] (by simp [packInt])
    have h5 : parse (.arr 2 :: (packInt t ++ c)).length (.arr 2 :: (packInt t ++ c)) =
        some (.arr [.int t, o], []) := by
      simpa [packInt] using h4
    unfold readInto
    rw [h5]
    rfl

/-- **C17 (refuted in general)** For a measurement of a number the same reader silently returns the time stamp as the value. -/
theorem C17_as_number_refuted (t n : ℕ) :
    ∃ ts : List (Tok K), packMeas (fun n => .ok (packInt n)) ⟨t, some n⟩ = .ok ts ∧
      ∀ (target : Meas ℕ), readInto (fun o _ => asMeas getInt o) ts target = .ok ⟨t, some t⟩ := by
  refine ⟨[.arr 2, .int t, .int n], rfl, fun target => ?_⟩
  have := parses_parts [(packInt t, _), (packInt n, _)]
      (by simp only [List.mem_cons, List.not_mem_nil, or_false, forall_eq_or_imp, forall_eq]
          exact ⟨parses_int (K := K) _, parses_int _⟩)
  have h4 := this ([.arr 2, .int t, .int n] : List (Tok K)).length [] (by simp [packInt])
  have h5 : parse ([.arr 2, .int t, .int n] : List (Tok K)).length [.arr 2, .int t, .int n] =
      some ((.arr [.int t, .int n] : Obj K), []) := by
    simpa [packInt] using h4
  unfold readInto
  rw [h5]
  rfl

/-- **C17 (refuted in general)** Building an in-memory object from a vector of more than one element
leaves all entries but the first uninitialised and stores the last element in the first. -/
theorem C17_zone_vector_refuted {n : ℕ} (v : Fin (n + 2) → K) :
    zoneVec Obj.num v = some (Obj.num (v (Fin.last (n + 1)))) :: List.replicate (n + 1) none := by
  have key : ∀ (l : List K) (x : K) (o : Option (Obj K)) (r : List (Option (Obj K))),
      (l ++ [x]).foldl (fun l x => l.set 0 (some (Obj.num x))) (o :: r) = some (Obj.num x) :: r := by
    intro l
    induction l with
    | nil => intro x o r; rfl
    | cons a as ih => intro x o r; simp only [List.cons_append, List.foldl_cons, List.set_cons_zero]
                      exact ih x _ r
  unfold zoneVec
  rw [List.ofFn_succ', List.concat_eq_append, List.replicate_succ]
  exact key _ _ _ _

/-- Non-trivial data: a measurement of a pose with distinct entries. -/
example : RoundTrips (packMeas (fun p : Pose ℚ => .ok (packPose p))
      ⟨17, some ⟨⟨1, 2, 3, 4⟩, ![5, 6, 7]⟩⟩) (convertMeas convertPose)
      ⟨17, some ⟨⟨1, 2, 3, 4⟩, ![5, 6, 7]⟩⟩ :=
  (C17_measurement_roundtrip 17).1 _

example : ¬ ∀ A : Mat ℚ 3 4, RoundTrips (packMat packNum A) (convertMat getNum) A := by
  rw [C17_matrix_roundtrip_iff_refuted 3 4 (by norm_num) (by norm_num)]
  norm_num

end Ubitrack.Msgpack
