import Verif.Properties.Task
/-!
Concrete tasks: cases that satisfy the hypotheses of the theorems of `Verif.Properties.Task`, and counterexamples for the
properties that do not hold in general.
-/
namespace ABX.Task
open ExtSort SideOps Sampler
variable {ρ : Type}

/-! ### an environment -/

def insertBy (l : List Int) (i : Nat) : List Nat → List Nat
  | [] => [i]
  | j :: js => if (l[i]?).getD 0 ≤ (l[j]?).getD 0 then i :: j :: js else j :: insertBy l i js

/-- a stable argsort by insertion -/
def insArgsort (l : List Int) : List Nat := (List.range l.length).foldr (insertBy l) []

theorem insertBy_perm (l : List Int) (i : Nat) : ∀ js, (insertBy l i js).Perm (i :: js)
  | [] => .refl _
  | j :: js => by
    unfold insertBy
    split
    · exact .refl _
    · exact ((insertBy_perm l i js).cons j).trans (.swap ..)

theorem insertBy_sorted (l : List Int) (i : Nat) : ∀ js, js.Pairwise (fun i j => (l[i]?).getD 0 ≤ (l[j]?).getD 0) →
    (insertBy l i js).Pairwise (fun i j => (l[i]?).getD 0 ≤ (l[j]?).getD 0)
  | [], _ => by simp [insertBy]
  | j :: js, h => by
    have h1 := List.pairwise_cons.mp h
    unfold insertBy
    split
    · rename_i hij
      refine List.pairwise_cons.mpr ⟨?_, h⟩
      intro k hk
      rcases List.mem_cons.mp hk with rfl | hk
      · exact hij
      · exact Int.le_trans hij (h1.1 k hk)
    · rename_i hij
      refine List.pairwise_cons.mpr ⟨?_, insertBy_sorted l i js h1.2⟩
      intro k hk
      rcases List.mem_cons.mp ((insertBy_perm l i js).mem_iff.mp hk) with rfl | hk
      · omega
      · exact h1.1 k hk

theorem insArgsort_law : ArgsortLaw insArgsort where
  perm l := by
    unfold insArgsort
    generalize List.range l.length = r
    induction r with
    | nil => exact .refl _
    | cons i r ih => exact (insertBy_perm l i _).trans (ih.cons i)
  sorted l s h := by
    have hp : (insArgsort l).Pairwise (fun i j => (l[i]?).getD 0 ≤ (l[j]?).getD 0) := by
      unfold insArgsort
      generalize List.range l.length = r
      induction r with
      | nil => exact .nil
      | cons i r ih => exact insertBy_sorted l i _ ih
    obtain ⟨-, rfl⟩ := gather_inv 0 h
    rw [List.pairwise_map]
    simpa [List.getD_eq_getElem?_getD] using hp

/-- groups and sets in order of appearance -/
def E0 : Env := ⟨fun _ l => l, fun _ _ l => l, id, id⟩
theorem E0_lawful : E0.Lawful := ⟨fun _ _ => .refl _, fun _ _ _ => .refl _, fun _ => .refl _, fun _ => .refl _⟩

/-- exact arithmetic -/
def N0 : Num := ⟨insArgsort, fun ns row => (horner ns row : Nat)⟩
theorem N0_exact : N0.Exact := fun _ _ _ _ _ => rfl

/-- a random source -/
def src0 : Src := ⟨fun _ => (0, true), 0, fun _ => 0, fun _ _ k => List.replicate k 0, 10⟩
theorem src0_lawful : src0.Lawful :=
  ⟨fun _ => by show (0 : Nat) < 2 ^ 53; norm_num, fun _ _ _ => List.length_replicate .., fun N _ _ hN x hx => by rw [(List.mem_replicate.mp hx).2]; exact hN⟩

def rowOf (l : List (String × Val)) : Row := fun c => (l.lookup c).getD (.int 0)
def mk (on : String) (ac : Int) (sp : Int := 0) : Row := rowOf [("on", .str on), ("ac", .int ac), ("sp", .int sp)]

/-- a task on "on" across "ac" of a table with columns "on", "ac", "sp" -/
def args0 (rows : List Row) (fs : List (DBFun Bool)) (rs : List (DBFun Nat)) (by_ : List String := []) : Args Nat :=
  ⟨["on", "ac", "sp"], "on", ["ac"], by_, ⟨["on"], ["ac"], by_⟩, fs, rs, rows.zipIdx.map (fun p => (p.2, p.1)), List.range rows.length⟩

/-- with a flat column hierarchy the only columns determined by 'on', 'across' and 'by' are themselves -/
theorem Args.OK.flat {a : Args ρ} (hc : a.cols = ⟨[a.on], a.across, a.by_⟩) (h : checkDatabase a = .ok ())
    (availF : ∀ f ∈ a.filters, Avail a.cols f) (availR : ∀ f ∈ a.regressors, Avail a.cols f)
    (inF : ∀ f ∈ a.filters, ∀ v ∈ f.inputs, v.1 ∈ a.columns) (inR : ∀ f ∈ a.regressors, ∀ v ∈ f.inputs, v.1 ∈ a.columns)
    (size : a.db.length * a.db.length * a.db.length < 2 ^ 64) : a.OK := by
  obtain ⟨h1, h2, h3, -⟩ := checkDatabase_ok h
  refine ⟨availF, availR, inF, inR, ?_, ?_, ?_, ?_, ?_, ?_, size⟩
  · rw [hc]; exact h3
  · rw [hc]; intro r hr; rw [List.mem_singleton.mp hr]; exact h1
  · rw [hc]; exact h2
  · rw [hc]; intro p _ q _ hpq r hr; exact List.map_inj_left.mp hpq r hr
  · rw [hc]; intro p _ q _ hpq r hr; rw [List.mem_singleton.mp hr]; exact hpq
  · rw [hc]; intro p _ q _ hpq r hr; exact List.map_inj_left.mp hpq r hr

def run (thr : Nat) (a : Args Nat) : Except Err (Option File) :=
  match init E0 a with
  | .error e => .error e
  | .ok T => generate E0 N0 thr (fun _ _ _ => src0) 1000 1000 T

/-- the triplets written for the first level -/
def runLevel (thr : Nat) (a : Args Nat) : Except Err (List (Nat × Nat × Nat)) :=
  match init E0 a with
  | .error e => .error e
  | .ok T => match T.levels with
    | [] => .error .keyError
    | L :: _ => (levelOut E0 N0 thr (fun _ _ _ => src0) T L).map (fun os => os.flatMap BlkOut.trips)

theorem runLevel_ok {thr : Nat} {a : Args Nat} {ts} (h : runLevel thr a = .ok ts) :
    ∃ T L os, init E0 a = .ok T ∧ L ∈ T.levels ∧ levelOut E0 N0 thr (fun _ _ _ => src0) T L = .ok os ∧ os.flatMap BlkOut.trips = ts := by
  unfold runLevel at h
  split at h
  · cases h
  rename_i T hT
  split at h
  · cases h
  rename_i L Ls hLs
  cases ho : levelOut E0 N0 thr (fun _ _ _ => src0) T L with
  | error e => rw [ho] at h; cases h
  | ok os =>
    rw [ho] at h
    exact ⟨T, L, os, hT, by rw [hLs]; simp, ho, Except.ok.inj h⟩

theorem run_ok {thr : Nat} {a : Args Nat} {F} (h : run thr a = .ok (some F)) :
    ∃ T, init E0 a = .ok T ∧ generate E0 N0 thr (fun _ _ _ => src0) 1000 1000 T = .ok (some F) := by
  unfold run at h
  split at h
  · cases h
  · rename_i T hT
    exact ⟨T, hT, h⟩

deriving instance DecidableEq for File

/-! ### a task that satisfies the hypotheses -/

/-- two items with on = a and ac = 1, two items with on = b and ac = 1, one item with on = a and ac = 2 (and one of another level) -/
def ex : Args Nat := args0 [mk "c" 3 1, mk "a" 1, mk "a" 1, mk "b" 1, mk "b" 1, mk "a" 2] [] [] ["sp"]

theorem ex_ok : ex.OK := Args.OK.flat rfl (by decide +kernel) (by intro f hf; cases hf) (by intro f hf; cases hf)
  (by intro f hf; cases hf) (by intro f hf; cases hf) (by decide +kernel)

/-- the task file: two levels, the first has no triplets -/
theorem ex_file : run 0 ex = .ok (some ⟨[(0, 2, 4), (0, 3, 4), (1, 2, 4), (1, 3, 4)], [0, 0, 4, 0, 0], [[.int 0]], [(0, 4)],
    [([.int 1], [[], [], [], []]), ([.int 0], [[2, 2, 2, 2], [1, 1, 1, 1], [1, 1, 1, 1], [2, 2, 2, 2]])]⟩) := by decide +kernel

/-- the level with triplets, alone -/
def ex1 : Args Nat := args0 [mk "a" 1, mk "a" 1, mk "b" 1, mk "b" 1, mk "a" 2] [] []

theorem ex1_ok : ex1.OK := Args.OK.flat rfl (by decide +kernel) (by intro f hf; cases hf) (by intro f hf; cases hf)
  (by intro f hf; cases hf) (by intro f hf; cases hf) (by decide +kernel)

theorem ex1_level : runLevel 0 ex1 = .ok [(0, 2, 4), (0, 3, 4), (1, 2, 4), (1, 3, 4)] := by decide +kernel
theorem ex1_level_threshold : runLevel 2 ex1 = .ok [(0, 2, 4), (0, 3, 4)] := by decide +kernel

/-- a block of at most 256 triplets and 2^53 combinations satisfies the hypothesis of C08 -/
theorem GroupFit.small {threshold : Nat} {c : Cols} {on : String} {across : List String} {rs : List (DBFun Nat)} {IT : List Tri}
    (h : ∀ t ∈ IT, Spec.combinations c rs (IT.filter (Spec.sameBlock on across t)) ≤ 2 ^ 53 ∧ (IT.filter (Spec.sameBlock on across t)).length ≤ 256) :
    GroupFit threshold c on across rs IT := by
  intro t ht
  refine ⟨(h t ht).1, Or.inr ?_⟩
  intro ty hty
  obtain ⟨h1, h2⟩ := C43_family _ _ _ hty
  have h3 := (h t ht).2
  have : (256 : Int) ≤ ty.hi := by
    unfold IntType.hi
    rw [h2]
    simp only [Bool.false_eq_true, if_false]
    simp only [List.mem_cons, List.not_mem_nil, or_false] at h1
    rcases h1 with h1 | h1 | h1 | h1 <;> rw [h1] <;> norm_num
  omega

theorem ex1_fit (threshold : Nat) (key : List Val) : GroupFit threshold ex1.cols ex1.on ex1.across (allRegs E0 ex1) (tripsSpec ex1 key) := by
  apply GroupFit.small
  have h : tripsSpec ex1 key = tripsSpec ex1 [.int 0] := rfl
  have : (tripsSpec ex1 [.int 0]).all (fun t =>
      decide (Spec.combinations ex1.cols (allRegs E0 ex1) ((tripsSpec ex1 [.int 0]).filter (Spec.sameBlock ex1.on ex1.across t)) ≤ 2 ^ 53) &&
      decide (((tripsSpec ex1 [.int 0]).filter (Spec.sameBlock ex1.on ex1.across t)).length ≤ 256)) = true := by decide +kernel
  rw [List.all_eq_true] at this
  rw [h]
  intro t ht
  simpa using this t ht

/-- C01, C02, C03, C04, C08, C09, C10: the hypotheses hold of `ex1` -/
example : ∃ (T : Task Nat) (L : Level Nat) (os : List BlkOut), init E0 ex1 = .ok T ∧ L ∈ T.levels ∧
    levelOut E0 N0 0 (fun _ _ _ => src0) T L = .ok os ∧ os.flatMap BlkOut.trips = [(0, 2, 4), (0, 3, 4), (1, 2, 4), (1, 3, 4)] ∧
    (∀ t ∈ os.flatMap BlkOut.trips, ∃ A ∈ itemsOf ex1 L.key, ∃ B ∈ itemsOf ex1 L.key, ∃ X ∈ itemsOf ex1 L.key, t = (A.1, B.1, X.1) ∧
      A.2 "on" = X.2 "on" ∧ B.2 "on" ≠ A.2 "on" ∧ (∀ c ∈ ["ac"], B.2 c = A.2 c) ∧ (∀ c ∈ ["ac"], X.2 c ≠ A.2 c) ∧ (["ac"] = [] → X.1 ≠ A.1)) ∧
    levelNbTriplets E0 T L = .ok 4 := by
  obtain ⟨T, L, os, h1, h2, h3, h4⟩ := runLevel_ok ex1_level
  refine ⟨T, L, os, h1, h2, h3, h4, C01_legal E0_lawful ex1_ok rfl h1 h2 insArgsort_law (fun _ _ _ => src0_lawful) h3, ?_⟩
  have := (C03_spec E0_lawful ex1_ok (.of_not_bare (by intro f hf; cases hf)) h1).2 L h2
  cases hn : levelNbTriplets E0 T L with
  | error e => rw [hn] at this; cases this
  | ok n =>
    have := C03_level E0_lawful ex1_ok h1 h2 insArgsort_law hn h3
    rw [this, h4]
    rfl

example : ∃ (T : Task Nat) (L : Level Nat) (os : List BlkOut) (S : List Tri), init E0 ex1 = .ok T ∧ L ∈ T.levels ∧
    levelOut E0 N0 2 (fun _ _ _ => src0) T L = .ok os ∧ os.flatMap BlkOut.trips = [(0, 2, 4), (0, 3, 4)] ∧
    ∀ t ∈ tripsSpec ex1 L.key, (S.filter (Spec.sameGroup ex1.cols "on" ["ac"] (allRegs E0 ex1) t)).length =
        min 2 ((tripsSpec ex1 L.key).filter (Spec.sameGroup ex1.cols "on" ["ac"] (allRegs E0 ex1) t)).length := by
  obtain ⟨T, L, os, h1, h2, h3, h4⟩ := runLevel_ok ex1_level_threshold
  obtain ⟨S, -, -, -, h⟩ := C08_threshold_partial E0_lawful ex1_ok (.of_not_bare (by intro f hf; cases hf)) h1 h2 insArgsort_law N0_exact (by omega : 0 < 2)
    (fun _ _ _ => src0_lawful) (ex1_fit 2 L.key) h3
  exact ⟨T, L, os, S, h1, h2, h3, h4, h⟩

example : ∃ (T : Task Nat) (L : Level Nat) (os : List BlkOut) (S : List Tri) (rs : List (DBFun Nat)), init E0 ex1 = .ok T ∧ L ∈ T.levels ∧
    levelOut E0 N0 2 (fun _ _ _ => src0) T L = .ok os ∧ os.flatMap BlkOut.trips = [(0, 2, 4), (0, 3, 4)] ∧ rs.Perm (allRegs E0 ex1) ∧
    (os.map BlkOut.regs).foldl appendCols [] = rs.map (fun f => S.map (Spec.regValue ex1.cols f)) := by
  obtain ⟨T, L, os, h1, h2, h3, h4⟩ := runLevel_ok ex1_level_threshold
  obtain ⟨S, rs, -, -, h5, h6⟩ := C10_aligned_partial E0_lawful ex1_ok (.of_not_bare (by intro f hf; cases hf)) h1 h2 insArgsort_law
    (fun _ _ _ => src0_lawful) (Or.inl (by intro f hf; cases hf)) h3 (by rintro rfl; cases h4)
  exact ⟨T, L, os, S, rs, h1, h2, h3, h4, h5, h6⟩

/-- C05, C06: the hypotheses hold of `ex` -/
example : ∃ F, run 0 ex = .ok (some F) ∧ F.byIndex = [(0, 4)] ∧
    List.Forall₂ (fun key p => (npSlice F.data p.1.toNat p.2.toNat).Perm
        ((Spec.triplets ex.cols ex.on ex.across ex.filters (itemsOf ex key)).map (fun t => ((t.1 : Int), (t.2.1 : Int), (t.2.2 : Int)))))
      F.bys F.byIndex := by
  obtain ⟨T, h1, h2⟩ := run_ok ex_file
  refine ⟨_, ex_file, rfl, C06_items_partial E0_lawful ex_ok (.of_not_bare (by intro f hf; cases hf)) h1 insArgsort_law (fun _ _ _ => src0_lawful) (by omega) (by omega) h2 ?_⟩
  intro total t ht htt L hL
  obtain ⟨g1, g2⟩ := C43_family _ _ _ htt
  have hlen : (itemsOf ex L.key).length ≤ 6 := by
    unfold itemsOf Spec.items
    rw [List.length_map, List.length_zipIdx]
    exact (List.length_filter_le ..)
  have : (128 : Int) ≤ t.hi := by
    unfold IntType.hi
    rw [g2]
    simp only [if_true]
    simp only [List.mem_cons, List.not_mem_nil, or_false] at g1
    rcases g1 with g1 | g1 | g1 | g1 <;> rw [g1] <;> norm_num
  omega

/-! ### counterexamples -/

/-- the filter "sp == 0", on bare columns -/
def keepF : DBFun Bool := ⟨[("sp", .none)], fun e => e ("sp", .none) == .int 0, by intro e e' h; rw [h _ (by simp)]⟩
/-- the filter "on_1 == 'b'" -/
def isB : DBFun Bool := ⟨[("on", .one)], fun e => e ("on", .one) == .str "b", by intro e e' h; rw [h _ (by simp)]⟩
/-- the regressor sp_A -/
def spA : DBFun Nat := ⟨[("sp", .A)], fun e => match e ("sp", .A) with | .int n => n.toNat | _ => 0, by intro e e' h; rw [h _ (by simp)]⟩

/-- the first item does not satisfy sp == 0 -/
def exBare : Args Nat := args0 [mk "z" 1 1, mk "a" 1, mk "b" 1, mk "a" 2, mk "a" 1] [keepF, isB] []

theorem exBare_ok : exBare.OK := Args.OK.flat rfl (by decide +kernel)
  (by intro f hf; simp only [exBare, args0, List.mem_cons, List.not_mem_nil, or_false] at hf
      rcases hf with rfl | rfl <;> constructor <;> simp [keepF, isB, exBare, args0])
  (by intro f hf; cases hf)
  (by intro f hf; simp only [exBare, args0, List.mem_cons, List.not_mem_nil, or_false] at hf
      rcases hf with rfl | rfl <;> simp [keepF, isB, exBare, args0])
  (by intro f hf; cases hf) (by decide +kernel)

/-- the last items are removed: the hypothesis `KeptFirst` holds although there is a filter on a bare column -/
def exLast : Args Nat := args0 [mk "a" 1, mk "b" 1, mk "a" 2, mk "a" 1, mk "a" 3 1, mk "b" 1 1] [keepF] []

theorem exLast_ok : exLast.OK := Args.OK.flat rfl (by decide +kernel)
  (by intro f hf; simp only [exLast, args0, List.mem_cons, List.not_mem_nil, or_false] at hf
      subst hf; constructor <;> simp [keepF, exLast, args0])
  (by intro f hf; cases hf)
  (by intro f hf; simp only [exLast, args0, List.mem_cons, List.not_mem_nil, or_false] at hf
      subst hf; simp [keepF, exLast, args0])
  (by intro f hf; cases hf) (by decide +kernel)

theorem exLast_kept : Spec'.KeptFirst exLast := Spec'.KeptFirst.of_rows (by decide +kernel)

/-- C04, with a filter on a bare column: the triplets written are those of the four items that are left -/
example : ∃ (T : Task Nat) (L : Level Nat) (os : List BlkOut), init E0 exLast = .ok T ∧ L ∈ T.levels ∧ levelOut E0 N0 0 (fun _ _ _ => src0) T L = .ok os ∧
    os.flatMap BlkOut.trips = [(0, 1, 2), (3, 1, 2)] ∧
    (os.flatMap BlkOut.trips).Perm (Spec.triplets exLast.cols exLast.on exLast.across exLast.filters (itemsOf exLast L.key)) := by
  obtain ⟨T, L, os, h1, h2, h3, h4⟩ := runLevel_ok (show runLevel 0 exLast = .ok [(0, 1, 2), (3, 1, 2)] by decide +kernel)
  exact ⟨T, L, os, h1, h2, h3, h4, C04_filters_partial E0_lawful exLast_ok exLast_kept h1 h2 insArgsort_law (fun _ _ _ => src0_lawful) h3⟩

/-- C04 is violated: with the filters "sp == 0" and "on_1 == 'b'" the triplets written have on_1 = 'a' (labels that are left by the first filter are
used as positions, so that the second filter looks at the wrong row); no triplet satisfies both filters. -/
theorem C04_violated : runLevel 0 exBare = .ok [(1, 2, 3), (4, 2, 3)] ∧
    Spec.triplets exBare.cols exBare.on exBare.across exBare.filters (itemsOf exBare [.int 0]) = [] := by
  constructor <;> decide +kernel

/-- the row used for the labels of a block of the first level: its 'on' and 'across' values -/
def runBlockRow (a : Args Nat) (key : List Val) : Except Err (List Nat × Val × Val) :=
  match init E0 a with
  | .error e => .error e
  | .ok T => match T.levels with
    | [] => .error .keyError
    | L :: _ => (blockRow T L key).map (fun r => (r.1, r.2 "on", r.2 "ac"))

/-- C11 is violated: after a bare filter that removes the first item, the labels of the block (a, 1) are (b, 1). -/
theorem C11_violated : runBlockRow exBare [.str "a", .int 1] = .ok ([1, 4], .str "b", .int 1) := by decide +kernel

/-- C11 is violated: when the bare filter removes the first item, a block that starts with the last item has no row at all. -/
theorem C11_violated_error : runLevel 0 (args0 [mk "z" 1 1, mk "a" 1, mk "b" 1, mk "a" 2] [keepF] []) = .error .indexError := by decide +kernel

/-- C06 is violated: 131 items and one triplet, (128, 129, 130); the file holds negative numbers. -/
theorem C06_violated : (∃ F, run 0 (args0 (List.replicate 128 (mk "z" 9) ++ [mk "a" 1, mk "b" 1, mk "a" 2]) [] []) = .ok (some F) ∧
      F.data = [(-128, -127, -126)]) ∧
    runLevel 0 (args0 (List.replicate 128 (mk "z" 9) ++ [mk "a" 1, mk "b" 1, mk "a" 2]) [] []) = .ok [(128, 129, 130)] := by
  constructor
  · have : (match run 0 (args0 (List.replicate 128 (mk "z" 9) ++ [mk "a" 1, mk "b" 1, mk "a" 2]) [] []) with
      | .ok (some F) => F.data | _ => []) = [(-128, -127, -126)] := by decide +kernel
    split at this
    · rename_i F h
      exact ⟨F, h, this⟩
    · cases this
  · decide +kernel

/-- C07 is violated by thresholds: one triplet is written, the boundaries are 0 and 3. -/
theorem C07_violated_threshold : run 1 (args0 [mk "a" 1, mk "b" 1, mk "b" 1, mk "b" 1, mk "a" 2] [] []) =
    .ok (some ⟨[(0, 1, 4)], [0, 3, 0, 0], [[.int 0]], [(0, 1)], [([.int 0], [[1], [0], [0], [1]])]⟩) := by decide +kernel

/-- C07 is violated by the type of the dataset: the boundary 130 of a block of 130 triplets is stored in a type fitted to the 3 blocks. -/
theorem C07_violated_type : ∃ F, run 0 (args0 ([mk "a" 1] ++ List.replicate 130 (mk "b" 1) ++ [mk "a" 2]) [] []) = .ok (some F) ∧
    F.data.length = 130 ∧ F.blockIndex = [0, -126, 0, 0] := by
  have : (match run 0 (args0 ([mk "a" 1] ++ List.replicate 130 (mk "b" 1) ++ [mk "a" 2]) [] []) with
      | .ok (some F) => (F.data.length, F.blockIndex) | _ => (0, [])) = (130, [0, -126, 0, 0]) := by decide +kernel
  split at this
  · rename_i F h
    simp only [Prod.mk.injEq] at this
    exact ⟨F, h, this⟩
  · cases this

/-- C08 is violated in large blocks: 257 triplets with regressor 0 and 2 with regressor 1, threshold 1: two triplets of the first group are
written and none of the second (the index 257 of the second group wraps to 1 in the type fitted to the 2 combinations). -/
theorem C08_violated : (sortBlock N0 1 (fun _ => src0) ((List.range 259).map (fun i => (i, i, i))) [List.replicate 257 0 ++ [1, 1]]).map (·.1) =
    .ok [(0, 0, 0), (1, 1, 1)] := by decide +kernel

/-- C10 is violated: the column sp_A is 0, 0, 1, 1 although the items A of the four triplets are 0, 1, 0, 1 and have sp = 0, 1, 0, 1. -/
theorem C10_violated : run 0 (args0 [mk "a" 1 0, mk "a" 1 1, mk "b" 1, mk "c" 1, mk "a" 2] [] [spA]) =
    .ok (some ⟨[(0, 2, 4), (1, 2, 4), (0, 3, 4), (1, 3, 4)], [0, 2, 4, 0, 0, 0], [[.int 0]], [(0, 4)],
      [([.int 0], [[2, 2, 2, 2], [0, 0, 0, 0], [0, 0, 1, 1], [0, 0, 1, 1], [1, 1, 1, 1]])]⟩) := by decide +kernel

/-- C10 is violated with a threshold: the columns do not have the same length and the task cannot be generated. -/
theorem C10_violated_threshold : run 1 (args0 [mk "a" 1 0, mk "a" 1 1, mk "b" 1, mk "c" 1, mk "a" 2] [] [spA]) = .error .valueError := by
  decide +kernel

/-- features of the first level -/
def runFeat (a : Args Nat) : Except Err (List Nat) :=
  match init E0 a with
  | .error e => .error e
  | .ok T => match T.levels with
    | [] => .error .keyError
    | L :: _ => .ok L.feat

/-- the filter "sp == 0" with sp a 'by' column -/
def bySp : DBFun Bool := ⟨[("sp", .none)], fun e => e ("sp", .none) == .int 0, by intro e e' h; rw [h _ (by simp)]⟩

/-- C15 is violated: row 1 of the item file has a missing value and was dropped; the records of the remaining rows 0, 2, 3 are 100, 102, 103.  The
level sp = 0 holds rows 0 and 2 but gets the records of rows 0 and 3. -/
theorem C15_violated : runFeat { args0 [] [bySp] [] ["sp"] with
    db := [(0, mk "a" 1), (2, mk "b" 1), (3, mk "a" 2 1)], feat := [100, 102, 103] } = .ok [100, 103] := by decide +kernel

/-- C15 is violated: without filter the same table cannot be used at all. -/
theorem C15_violated_error : runFeat { args0 [] [] [] ["sp"] with
    db := [(0, mk "a" 1), (2, mk "b" 1), (3, mk "a" 2 1)], feat := [100, 102, 103] } = .error .indexError := by decide +kernel

#print axioms C04_violated
#print axioms C11_violated
#print axioms C11_violated_error
#print axioms C06_violated
#print axioms C07_violated_threshold
#print axioms C07_violated_type
#print axioms C08_violated
#print axioms C10_violated
#print axioms C10_violated_threshold
#print axioms C15_violated
#print axioms C15_violated_error

end ABX.Task

#print axioms ABX.Task.C01_legal
#print axioms ABX.Task.C02_exactly_once
#print axioms ABX.Task.C02_levels
#print axioms ABX.Task.C03_level
#print axioms ABX.Task.C03_total
#print axioms ABX.Task.C03_block
#print axioms ABX.Task.C03_spec
#print axioms ABX.Task.C04_filters_partial
#print axioms ABX.Task.C04_levels
#print axioms ABX.Task.C04_violated
#print axioms ABX.Task.C05_partition
#print axioms ABX.Task.C06_items_partial
#print axioms ABX.Task.C06_violated
#print axioms ABX.Task.C07_blocks_partial
#print axioms ABX.Task.C07_violated_threshold
#print axioms ABX.Task.C07_violated_type
#print axioms ABX.Task.C08_threshold_partial
#print axioms ABX.Task.C08_violated
#print axioms ABX.Task.C09_sort
#print axioms ABX.Task.C09_level
#print axioms ABX.Task.C10_aligned_partial
#print axioms ABX.Task.C10_violated
#print axioms ABX.Task.C10_violated_threshold
#print axioms ABX.Task.C11_labels_partial
#print axioms ABX.Task.C11_violated
#print axioms ABX.Task.C11_violated_error
#print axioms ABX.Task.C15_features_partial
#print axioms ABX.Task.C15_violated
#print axioms ABX.Task.C15_violated_error
