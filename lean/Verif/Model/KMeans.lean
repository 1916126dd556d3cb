import Verif.Model.Quaternion

/-!
# k-means clustering

Models `utMath/Stochastic/k_means.h`, over exact reals. The only NaNs that exact data can produce are modelled:
the mean of an empty cluster, `0 / 0` (l.321). A centroid is an `Option`, `none` standing for NaN; a distance to it
is NaN, and every comparison with NaN is false.
-/

namespace Ubitrack.KMeans

variable {d : ℕ}

/-- A centroid; `none` is a vector of NaN. -/
abbrev Centroid (d : ℕ) := Option (Vec ℝ d)

/-- Distance functor applied to a vector and a centroid, l.97, l.101. -/
def distO (dist : Vec ℝ d → Vec ℝ d → ℝ) (v : Vec ℝ d) (m : Centroid d) : Option ℝ := m.map (dist v)

/-- `a < b` for numbers that may be NaN. -/
def ltO (a b : Option ℝ) : Prop :=
  match a, b with
  | some x, some y => x < y
  | _, _ => False

open Classical in
/-- The loop of `assign_indices::operator()`, l.99-107: remaining centroids, `k_now`, `d`, `k`. -/
noncomputable def assignLoop (dist : Vec ℝ d → Vec ℝ d → ℝ) (v : Vec ℝ d) :
    List (Centroid d) → ℕ → Option ℝ → ℕ → ℕ
  | [], _, _, k => k
  | m :: ms, kNow, best, k =>
    let dNew := distO dist v m
    if ltO dNew best then assignLoop dist v ms (kNow + 1) dNew kNow
    else assignLoop dist v ms (kNow + 1) best k

/-- `assign_indices::operator()`, l.86-109: the label of a vector. Without centroids the code dereferences the end
iterator; the model returns 0, and no theorem covers this case. -/
noncomputable def assign (dist : Vec ℝ d → Vec ℝ d → ℝ) (means : List (Centroid d)) (v : Vec ℝ d) : ℕ :=
  match means with
  | [] => 0
  | m :: ms => assignLoop dist v ms 1 (distO dist v m) 0

/-- `k_means_accumulate` with `assign_to_mean`, l.113-138 and l.317: add every vector to the sum at its label. -/
def accumulate (data : List (Vec ℝ d)) (indices : List ℕ) (sums : List (Vec ℝ d)) : List (Vec ℝ d) :=
  (data.zip indices).foldl (fun s x => s.modify x.2 (· + x.1)) sums

/-- The new centroids, l.311-321: fresh zeros, accumulated, each divided by the number of its vectors. -/
noncomputable def newMeans (data : List (Vec ℝ d)) (indices : List ℕ) (nCluster : ℕ) : List (Centroid d) :=
  (accumulate data indices (List.replicate nCluster 0)).mapIdx (fun k s =>
    if indices.count k = 0 then none else some ((indices.count k : ℝ)⁻¹ • s))

/-- The summarised difference, l.324-327: NaN if any distance is. -/
noncomputable def diffError (dist : Vec ℝ d → Vec ℝ d → ℝ) (old new : List (Centroid d)) : Option ℝ :=
  (((old.zip new).map (fun x => x.1.bind (fun o => distO dist o x.2))).foldl
    (fun s x => s.bind (fun a => x.map (a + ·))) (some 0)).map (· / old.length)

open Classical in
/-- The main loop, l.309-337, with the number of remaining passes: centroids and labels at the end. -/
noncomputable def loop (dist : Vec ℝ d → Vec ℝ d → ℝ) (data : List (Vec ℝ d)) :
    ℕ → List (Centroid d) → List ℕ → List (Centroid d) × List ℕ
  | 0, means, indices => (means, indices)
  | i + 1, means, indices =>
    let means' := newMeans data indices means.length
    let err := diffError dist means means'
    let indices' := data.map (assign dist means')
    if ltO err (some (1e-2 ^ 2)) then (means', indices') else loop dist data i means' indices'

/-- The inner `k_means`, l.272-344 (100 passes, l.292). -/
noncomputable def kMeansFrom (dist : Vec ℝ d → Vec ℝ d → ℝ) (data : List (Vec ℝ d)) (means : List (Vec ℝ d)) :
    List (Centroid d) × List ℕ :=
  let means := means.map some
  loop dist data 100 means (data.map (assign dist means))

/-! ### Seeding -/

open Classical in
/-- Choice of the next seed, l.232-236: the index at which the drawn value falls into the cumulated distances. -/
noncomputable def pick : List ℝ → ℝ → ℕ
  | [], _ => 0
  | [_], _ => 0
  | x :: y :: ys, r => if r ≤ x then 0 else pick (y :: ys) (r - x) + 1

/-- The loop of `copy_probability`, l.225-257: remaining seeds to choose, distances to the nearest seed. `draw`
stands for `distribute_uniform( 0, dist_sum )`, at each call any number. -/
noncomputable def seedLoop (dist : Vec ℝ d → Vec ℝ d → ℝ) (data : List (Vec ℝ d)) :
    List (ℝ → ℝ) → List ℝ → List (Vec ℝ d)
  | [], _ => []
  | draw :: draws, distances =>
    let distSum := distances.sum
    open Classical in
    if distSum ≤ 0 then [] else
      match data[pick distances (draw distSum)]? with
      | none => []
      | some new => new :: seedLoop dist data draws (List.zipWith min distances (data.map (fun x => dist x new)))

/-- `copy_probability`, l.205-259: the selected vectors. `first` is the first random index, `draws` has one entry
for every further seed requested (`n_cluster - 1`). -/
noncomputable def seeds (dist : Vec ℝ d → Vec ℝ d → ℝ) (data : List (Vec ℝ d)) (first : ℕ) (draws : List (ℝ → ℝ)) :
    List (Vec ℝ d) :=
  match data[first]? with
  | none => []
  | some s => s :: seedLoop dist data draws (data.map (fun x => dist x s))

/-- `SquaredDistance`, VectorFunctions.h l.145-163. -/
def sqDist (a b : Vec ℝ d) : ℝ := ∑ i, (a - b) i * (a - b) i

/-- `Distance`, VectorFunctions.h l.102-120. -/
noncomputable def eDist (a b : Vec ℝ d) : ℝ := Real.sqrt (∑ i, (a - b) i * (a - b) i)

/-- The outer `k_means`, l.382-403: seeds with `Distance`, clusters with `SquaredDistance`. -/
noncomputable def kMeans (data : List (Vec ℝ d)) (first : ℕ) (draws : List (ℝ → ℝ)) : List (Centroid d) × List ℕ :=
  kMeansFrom sqDist data (seeds eDist data first draws)

end Ubitrack.KMeans
