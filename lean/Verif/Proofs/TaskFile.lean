import Verif.Proofs.TaskStats
import Verif.Proofs.NP2H5
/-! The task file written by `generate`. -/
namespace ABX.Task
open ExtSort SideOps Sampler NP2H5
variable {α β γ ρ : Type}

theorem written_map (ws : List (List α)) : Spec.written (ws.map Op.write) = ws.flatten := by
  induction ws with
  | nil => rfl
  | cons w ws ih => simp [Spec.written, ih]

theorem exitOk_single {zero : α} {b b' : Buf α} (h : b.flush zero = .ok b') (hf : b'.fixed = false) : exitOk zero [b] = .ok [b'] := by
  simp [exitOk, flushAll, h, Buf.isComplete, hf]

theorem writeDataset_plain (zero : α) (name : String) (n : Nat) {bl : Nat} (hb : 0 < bl) (ws : List (List α)) :
    writeDataset zero name n bl none ws = .ok (ws.flatten ++ List.replicate (n - ws.flatten.length) zero) := by
  obtain ⟨b, h1, h2, -, -, h3⟩ := create_inv zero name n bl false hb (by simp)
  obtain ⟨b1, r1, r2, r3⟩ := run_inv zero _ (ws.map .write) b [] h3 (by simp [h2])
  obtain ⟨b2, f1, f2, f3, f4⟩ := flush_inv zero _ b1 _ r3
  unfold writeDataset
  rw [h1]
  dsimp only
  rw [r1]
  dsimp only
  rw [exitOk_single f1 (by rw [f2, r2, h2])]
  dsimp only
  obtain ⟨fl, l1, l2, l3⟩ := f4.log
  rw [f3, List.take_zero, List.append_nil, List.nil_append, written_map] at l2
  subst l2
  rw [List.flatMap_singleton, l3, ← l1]
  simp

theorem writeDataset_resize (zero : α) (name : String) (n : Nat) {bl : Nat} (hb : 0 < bl) (ws : List (List α)) :
    writeDataset zero name n bl (some ws.flatten.length) ws = .ok ws.flatten := by
  obtain ⟨b, h1, h2, -, -, h3⟩ := create_inv zero name n bl false hb (by simp)
  obtain ⟨b1, r1, r2, r3⟩ := run_inv zero _ (ws.map .write) b [] h3 (by simp [h2])
  rw [written_map, List.nil_append] at r3
  unfold writeDataset
  rw [h1]
  dsimp only
  rw [r1]
  dsimp only
  obtain ⟨fl, l1, l2, l3⟩ := r3.log
  have hlen := r3.length
  have hl := r3.len
  have hix := r3.ix
  generalize hW : ws.flatten = W at *
  have hd : h5Resize zero b1.data W.length = fl ++ List.replicate b1.bufIx zero := by
    rw [l3]
    unfold h5Resize
    rw [List.drop_replicate, List.take_append, l1, List.take_of_length_le (by omega), List.append_assoc]
    congr 1
    rw [List.take_replicate, List.replicate_append_replicate]
    congr 1
    simp only [List.length_append, List.length_replicate, l1]
    omega
  rw [hd]
  have htl : (b1.buf.take b1.bufIx).length = b1.bufIx := by simp; omega
  have hfl : ∃ b', Buf.flush zero { b1 with data := fl ++ List.replicate b1.bufIx zero } = .ok b' ∧ b'.fixed = false ∧ b'.data = W := by
    unfold Buf.flush
    dsimp only
    by_cases h0 : b1.bufIx > 0
    · rw [if_pos h0]
      have hds : (if b1.fixed = false ∧ b1.dsIx + b1.bufIx > b1.nRows then h5Resize zero (fl ++ List.replicate b1.bufIx zero) (b1.dsIx + b1.bufIx)
          else fl ++ List.replicate b1.bufIx zero) = fl ++ List.replicate b1.bufIx zero := by
        split
        · unfold h5Resize
          rw [List.take_of_length_le (by simp; omega)]
          simp [l1]
        · rfl
      rw [hds]
      have ha := h5Assign_ok (fl ++ List.replicate b1.bufIx zero) (b1.buf.take b1.bufIx) b1.dsIx (b1.dsIx + b1.bufIx) (by omega) (by simp; omega) (by omega)
      rw [ha]
      refine ⟨_, rfl, by rw [r2, h2], ?_⟩
      dsimp only
      rw [List.take_append, List.take_of_length_le (by omega), l1, Nat.sub_self, List.take_zero, List.append_nil,
        List.drop_eq_nil_of_le (by simp; omega), List.append_nil, l2]
    · rw [if_neg h0]
      have : b1.bufIx = 0 := by omega
      refine ⟨_, rfl, by dsimp only; rw [r2, h2], ?_⟩
      rw [l2, this]
      simp
  obtain ⟨b', f1, f2, f3⟩ := hfl
  rw [exitOk_single f1 f2]
  dsimp only
  rw [List.flatMap_singleton, f3]

/-- intervals of pieces put one after the other -/
def intervals : Nat → List Nat → List (Nat × Nat)
  | _, [] => []
  | c, n :: ns => (c, c + n) :: intervals (c + n) ns

/-- boundaries of the pieces -/
def cuts : Nat → List Nat → List Nat
  | _, [] => []
  | c, n :: ns => (c + n) :: cuts (c + n) ns

theorem cuts_last (c : Nat) (ns : List Nat) : (c :: cuts c ns).getLastD 0 = c + ns.sum := by
  induction ns generalizing c with
  | nil => rfl
  | cons n ns ih =>
    have := ih (c + n)
    simp only [cuts]
    rw [List.getLastD_cons] at this ⊢
    simp only [List.getLastD_cons] at this ⊢
    rw [this]
    simp; omega

theorem cuts_zip (c : Nat) (ns : List Nat) : (c :: cuts c ns).zip (cuts c ns) = intervals c ns := by
  induction ns generalizing c with
  | nil => rfl
  | cons n ns ih => simp only [cuts, List.zip_cons_cons, intervals, ih]

theorem cuts_le (c : Nat) (ns : List Nat) : ∀ x ∈ c :: cuts c ns, x ≤ c + ns.sum := by
  induction ns generalizing c with
  | nil => simp [cuts]
  | cons n ns ih =>
    intro x hx
    rcases List.mem_cons.mp hx with rfl | hx
    · simp
    · have := ih (c + n) x hx
      simp; omega

theorem byLoop_ok : ∀ (l : List (List Val × Nat)) (c : Nat) (bounds : List Nat) (bys : List (List Val)), bounds.getLastD 0 = c →
    byLoop l c bounds bys = (bounds ++ cuts c ((l.filter (fun p => p.2 != 0)).map (·.2)), bys ++ (l.filter (fun p => p.2 != 0)).map (·.1))
  | [], c, bounds, bys, _ => by simp [byLoop, cuts]
  | (key, n) :: rest, c, bounds, bys, h => by
    unfold byLoop
    rw [h]
    by_cases hn : n = 0
    · subst hn
      rw [if_pos (by omega), Nat.add_zero, byLoop_ok rest c bounds bys h]
      simp
    · rw [if_neg (by omega), byLoop_ok rest (c + n) _ _ (by simp)]
      simp [hn, cuts]

/-- a boundary is stored exactly -/
theorem fit_cast {v w : Nat} {s : Bool} {t : IntType} (h : fitIntegerType (v : Int) s = .ok t) (hw : w ≤ v) : t.cast (w : Int) = w :=
  C43_holds _ _ _ h _ (by omega) (by omega)

/-- triplets written for a level -/
def levelTrips (p : List Val × List BlkOut) : List (Nat × Nat × Nat) := p.2.flatMap BlkOut.trips

/-- the levels with triplets -/
def kept (outs : List (List Val × List BlkOut)) : List (List Val × List BlkOut) := outs.filter (fun p => !(levelTrips p).isEmpty)

theorem levelTrips_sum (p : List Val × List BlkOut) : (p.2.map (fun o => o.trips.length)).sum = (levelTrips p).length := by
  unfold levelTrips
  rw [List.length_flatMap]

theorem kept_flatMap (outs : List (List Val × List BlkOut)) : (kept outs).flatMap levelTrips = outs.flatMap levelTrips := by
  induction outs with
  | nil => rfl
  | cons p outs ih =>
    unfold kept at ih ⊢
    rw [List.filter_cons]
    cases h : levelTrips p with
    | nil => simp [h, ih]
    | cons x l => simp [h, ih]

theorem kept_map (outs : List (List Val × List BlkOut)) :
    ((outs.map (fun p => (p.1, (p.2.map (fun o => o.trips.length)).sum))).filter (fun p => p.2 != 0)) = (kept outs).map (fun p => (p.1, (levelTrips p).length)) := by
  induction outs with
  | nil => rfl
  | cons p outs ih =>
    unfold kept at ih ⊢
    rw [List.map_cons, List.filter_cons, List.filter_cons, ih, levelTrips_sum]
    cases h : levelTrips p with
    | nil => simp
    | cons x l => simp [h]

theorem data_eq (f : Nat × Nat × Nat → α) (outs : List (List Val × List BlkOut)) :
    ((outs.flatMap (·.2)).map (fun o => o.trips.map f)).flatten = (outs.flatMap levelTrips).map f := by
  have h1 : ∀ os : List BlkOut, (os.map (fun o => o.trips.map f)).flatten = (os.flatMap BlkOut.trips).map f := by
    intro os
    induction os with
    | nil => rfl
    | cons o os ih => simp [ih]
  induction outs with
  | nil => rfl
  | cons p outs ih =>
    rw [List.flatMap_cons, List.map_append, List.flatten_append, ih, h1, List.flatMap_cons, List.map_append]
    rfl

theorem index_eq (f : Nat → α) (os : List BlkOut) : (os.map (fun o => o.index.map f)).flatten = os.flatMap (fun o => o.index.map f) := by
  rw [List.flatMap_def]

theorem index_len (f : Nat → α) (os : List BlkOut) : (os.flatMap (fun o => o.index.map f)).length = (os.flatMap BlkOut.index).length := by
  simp [List.length_flatMap]

structure FileOK (e : Env) (N : Num) (threshold : Nat) (src : List Val → List Val → Nat → Src) (T : Task ρ) (F : File)
    (total : Int) (t tb : IntType) (outs : List (List Val × List BlkOut)) : Prop where
  total_ok : nbTriplets e T = .ok total
  total_ne : total ≠ 0
  t_ok : fitIntegerType total = .ok t
  tb_ok : fitIntegerType ((T.levels.map (fun L => (groupKeys e "stats" (T.on :: T.across) L.frame).length)).sum : Nat) = .ok tb
  outs_ok : List.Forall₂ (fun L p => p.1 = L.key ∧ levelOut e N threshold src T L = .ok p.2) T.levels outs
  data : F.data = ((kept outs).flatMap levelTrips).map (castTrip t)
  bys : F.bys = (kept outs).map (·.1)
  index : F.byIndex = (intervals 0 ((kept outs).map (fun p => (levelTrips p).length))).map (fun p => (((p.1 : Nat) : Int), ((p.2 : Nat) : Int)))
  blocks : F.blockIndex = ((outs.flatMap (·.2)).flatMap (fun o => o.index.map (fun n : Nat => tb.cast n))) ++
    List.replicate ((T.levels.map (fun L => (groupKeys e "stats" (T.on :: T.across) L.frame).length)).sum - ((outs.flatMap (·.2)).flatMap BlkOut.index).length) 0
  regs : F.regs = outs.map (fun p => (p.1, (p.2.map BlkOut.regs).foldl appendCols []))

theorem generate_ok {e : Env} {N : Num} {threshold : Nat} {src : List Val → List Val → Nat → Src} {bl1 bl2 : Nat} (h1 : 0 < bl1) (h2 : 0 < bl2)
    {T : Task ρ} {F : File} (h : generate e N threshold src bl1 bl2 T = .ok (some F)) :
    ∃ total t tb outs, FileOK e N threshold src T F total t tb outs := by
  unfold generate at h
  split at h
  · cases h
  rename_i total htot
  split at h
  · cases h
  rename_i hne
  dsimp only at h
  split at h
  · cases h
  rename_i t ht
  split at h
  · cases h
  rename_i tb htb
  split at h
  · cases h
  rename_i outs houts
  have hloop := byLoop_ok (outs.map (fun p => (p.1, (p.2.map (fun o => o.trips.length)).sum))) 0 [0] [] (by decide)
  rw [kept_map, List.map_map, List.map_map] at hloop
  generalize byLoop (outs.map (fun p => (p.1, (p.2.map (fun o => o.trips.length)).sum))) 0 [0] [] = r at h hloop
  have eb := congrArg Prod.fst hloop
  have ey := congrArg Prod.snd hloop
  dsimp only at eb ey
  clear hloop
  split at h
  · cases h
  rename_i ti hti
  have hbnd : ∀ (l : List Nat), [0] ++ cuts 0 l = 0 :: cuts 0 l := fun _ => rfl
  rw [hbnd] at eb
  have el := cuts_last 0 (List.map ((fun p : List Val × Nat => p.2) ∘ fun p : List Val × List BlkOut => (p.1, (levelTrips p).length)) (kept outs))
  rw [← eb] at el
  have hdata : ((outs.flatMap (·.2)).map (fun o => o.trips.map (castTrip t))).flatten = ((kept outs).flatMap levelTrips).map (castTrip t) := by
    rw [kept_flatMap, data_eq]
  have hlen : 0 + (List.map ((fun p : List Val × Nat => p.2) ∘ fun p : List Val × List BlkOut => (p.1, (levelTrips p).length)) (kept outs)).sum =
      ((outs.flatMap (·.2)).map (fun o => o.trips.map (castTrip t))).flatten.length := by
    rw [hdata, List.length_map, List.length_flatMap, Nat.zero_add]
    rfl
  rw [el, hlen, writeDataset_resize _ _ _ h1] at h
  dsimp only at h
  rw [writeDataset_plain _ _ _ h2] at h
  simp only [Except.ok.injEq, Option.some.injEq] at h
  refine ⟨total, t, tb, outs, htot, hne, ht, htb, ?_, ?_, ?_, ?_, ?_, ?_⟩
  · have := sequence_inv houts
    refine List.Forall₂.imp ?_ this
    intro L p hp
    cases hl : levelOut e N threshold src T L with
    | error er => rw [hl] at hp; cases hp
    | ok os => rw [hl] at hp; cases hp; exact ⟨rfl, rfl⟩
  · rw [← h, hdata]
  · rw [← h]; dsimp only; rw [ey]; rfl
  · rw [← h]
    dsimp only
    have hcast : ∀ x ∈ 0 :: cuts 0 ((kept outs).map (fun p => (levelTrips p).length)), ti.cast (x : Int) = (x : Int) := by
      intro x hx
      exact fit_cast hti (by rw [el]; exact cuts_le 0 _ x hx)
    have : (0 :: cuts 0 ((kept outs).map (fun p => (levelTrips p).length))).map (fun n : Nat => ti.cast n) =
        (0 :: cuts 0 ((kept outs).map (fun p => (levelTrips p).length))).map (fun n : Nat => (n : Int)) := List.map_congr_left hcast
    have e0 : List.map ((fun p : List Val × Nat => p.2) ∘ fun p : List Val × List BlkOut => (p.1, (levelTrips p).length)) (kept outs) =
      (kept outs).map (fun p => (levelTrips p).length) := rfl
    rw [eb, e0, this, ← List.map_tail, List.zip_map, List.tail_cons, cuts_zip]
    rfl
  · rw [← h]
    dsimp only
    rw [index_eq, index_len]
  · rw [← h]

end ABX.Task
