import Verif.Proofs.TaskOut
/-! What `levelOut` returns, in terms of the item table. -/
namespace ABX.Task
open ExtSort SideOps Sampler
variable {α β γ ρ : Type}

/-- the items of a level -/
def itemsOf (a : Args ρ) (key : List Val) : List (Nat × Row) := Spec.items a.by_ (a.db.map (·.2)) (specKey a key)

/-- its triplets -/
def tripsSpec (a : Args ρ) (key : List Val) : List Tri := Spec.itemTriplets a.cols a.on a.across a.filters (itemsOf a key)

/-- the regressors: those of the user and the default ones -/
def allRegs (e : Env) (a : Args ρ) : List (DBFun Nat) := a.regressors ++ defaultRegs e a a.db

theorem sameBlock_sim {cols : List String} {on : String} {across : List String} (hon : on ∈ cols) (hac : ∀ c ∈ across, c ∈ cols) {t t' u u' : Tri}
    (h : Sim3 cols t t') (h' : Sim3 cols u u') : Spec.sameBlock on across t u = Spec.sameBlock on across t' u' := by
  unfold Spec.sameBlock
  rw [h.1.2 on hon, h'.1.2 on hon, h.1.1, h'.1.1]
  have : across.all (fun col => t.1.2 col == u.1.2 col) = across.all (fun col => t'.1.2 col == u'.1.2 col) := by
    rw [Bool.eq_iff_iff, List.all_eq_true, List.all_eq_true]
    constructor <;> intro hh c hc
    · rw [← h.1.2 c (hac c hc), ← h'.1.2 c (hac c hc)]; exact hh c hc
    · rw [h.1.2 c (hac c hc), h'.1.2 c (hac c hc)]; exact hh c hc
  rw [this]

theorem sameGroup_sim {cols : List String} {c : Cols} {on : String} {across : List String} {rs : List (DBFun Nat)} (hon : on ∈ cols) (hac : ∀ c ∈ across, c ∈ cols)
    (hrs : ∀ f ∈ rs, ∀ v ∈ f.inputs, v.1 ∈ cols) {t t' u u' : Tri}
    (h : Sim3 cols t t') (h' : Sim3 cols u u') : Spec.sameGroup c on across rs t u = Spec.sameGroup c on across rs t' u' := by
  unfold Spec.sameGroup
  rw [sameBlock_sim hon hac h h']
  congr 1
  rw [Bool.eq_iff_iff, List.all_eq_true, List.all_eq_true]
  constructor <;> intro hh f hf
  · rw [← regValue_sim (hrs f hf) h, ← regValue_sim (hrs f hf) h']; exact hh f hf
  · rw [regValue_sim (hrs f hf) h, regValue_sim (hrs f hf) h']; exact hh f hf

theorem groupFit_sim {cols : List String} {c : Cols} {on : String} {across : List String} {rs : List (DBFun Nat)} {thr : Nat} (hon : on ∈ cols) (hac : ∀ c ∈ across, c ∈ cols)
    (hrs : ∀ f ∈ rs, ∀ v ∈ f.inputs, v.1 ∈ cols) {l l' : List Tri} (h : List.Forall₂ (Sim3 cols) l l') (hf : GroupFit thr c on across rs l') :
    GroupFit thr c on across rs l := by
  intro t ht
  obtain ⟨t', ht', hs⟩ := forall₂_mem_left h t ht
  have hb : List.Forall₂ (Sim3 cols) (l.filter (Spec.sameBlock on across t)) (l'.filter (Spec.sameBlock on across t')) :=
    forall₂_filter (fun u u' hu => sameBlock_sim hon hac hs hu) h
  have hcomb : Spec.combinations c rs (l.filter (Spec.sameBlock on across t)) = Spec.combinations c rs (l'.filter (Spec.sameBlock on across t')) := by
    unfold Spec.combinations
    congr 1
    apply List.map_congr_left
    intro f hf'
    rw [forall₂_map_eq hb (fun x y hxy => regValue_sim (hrs f (List.mem_filter.mp hf').1) hxy)]
  rw [hcomb, hb.length_eq]
  exact hf t' ht'

/-- choice of related elements -/
theorem forall₂_choose {R : α → β → Prop} {l : List α} {l' : List β} (h : List.Forall₂ R l l') {s : List α} (hs : ∀ x ∈ s, x ∈ l) :
    ∃ s' : List β, List.Forall₂ R s s' ∧ ∀ y ∈ s', y ∈ l' := by
  induction s with
  | nil => exact ⟨[], .nil, by simp⟩
  | cons x s ih =>
    obtain ⟨s', h1, h2⟩ := ih (fun z hz => hs z (by simp [hz]))
    obtain ⟨y, hy, hr⟩ := forall₂_mem_left h x (hs x (by simp))
    refine ⟨y :: s', .cons hr h1, ?_⟩
    intro z hz
    rcases List.mem_cons.mp hz with rfl | hz
    · exact hy
    · exact h2 z hz

theorem items_distinct (a : Args ρ) (key : List Val) : Distinct (itemsOf a key) := by
  unfold Distinct itemsOf Spec.items
  rw [List.map_map, show ((fun p : Nat × Row => p.1) ∘ fun p : Row × Nat => (p.2, p.1)) = Prod.snd from rfl, List.zipIdx_map_snd]
  exact List.nodup_range' ..

theorem tripsSpec_nodup (a : Args ρ) (key : List Val) : (tripsSpec a key).Nodup := by
  have := (items_distinct a key).nodup
  exact List.Nodup.filter _ (prod3_nodup this this this)

theorem tripsSpec_lab {a : Args ρ} {key : List Val} {t u : Tri} (ht : t ∈ tripsSpec a key) (hu : u ∈ tripsSpec a key) (h : lab t = lab u) : t = u := by
  have hd := items_distinct a key
  obtain ⟨a1, b1, x1⟩ := t
  obtain ⟨a2, b2, x2⟩ := u
  obtain ⟨h1, h2, h3⟩ := mem_prod3.mp (show (a1, b1, x1) ∈ prod3 _ _ _ from (List.mem_filter.mp ht).1)
  obtain ⟨h4, h5, h6⟩ := mem_prod3.mp (show (a2, b2, x2) ∈ prod3 _ _ _ from (List.mem_filter.mp hu).1)
  simp only [lab, Prod.mk.injEq] at h
  dsimp only at h1 h2 h3 h4 h5 h6
  rw [hd.inj h1 h4 h.1, hd.inj h2 h5 h.2.1, hd.inj h3 h6 h.2.2]

/-- equal groups are next to each other -/
def Together (same : γ → γ → Bool) (l : List γ) : Prop :=
  ∀ (i j k : Nat) (x y z : γ), i ≤ j → j ≤ k → l[i]? = some x → l[j]? = some y → l[k]? = some z → same x z = true → same x y = true

theorem forall₂_split {R : α → β → Prop} : ∀ {l1 l2 : List α} {l' : List β}, List.Forall₂ R (l1 ++ l2) l' →
    ∃ l1' l2', l' = l1' ++ l2' ∧ List.Forall₂ R l1 l1' ∧ List.Forall₂ R l2 l2'
  | [], l2, l', h => ⟨[], l', rfl, .nil, h⟩
  | x :: l1, l2, _, .cons h1 h2 => by
    obtain ⟨l1', l2', rfl, h3, h4⟩ := forall₂_split h2
    exact ⟨_ :: l1', l2', rfl, .cons h1 h3, h4⟩

theorem forall₂_unflatten {R : α → β → Prop} : ∀ {ps : List (List α)} {l' : List β}, List.Forall₂ R ps.flatten l' →
    ∃ ps' : List (List β), ps'.flatten = l' ∧ List.Forall₂ (List.Forall₂ R) ps ps'
  | [], l', h => ⟨[], by cases h; rfl, .nil⟩
  | p :: ps, l', h => by
    obtain ⟨l1, l2, rfl, h1, h2⟩ := forall₂_split (l1 := p) (l2 := ps.flatten) h
    obtain ⟨ps', rfl, h3⟩ := forall₂_unflatten h2
    exact ⟨l1 :: ps', rfl, .cons h1 h3⟩

theorem runBounds_sim {R : α → β → Prop} {same : α → α → Bool} {same' : β → β → Bool} {l : List α} {l' : List β} (h : List.Forall₂ R l l')
    (hs : ∀ x x' y y', R x x' → R y y' → same x y = same' x' y') : Spec.runBounds same l = Spec.runBounds same' l' := by
  have hlen := h.length_eq
  unfold Spec.runBounds
  rw [hlen]
  apply List.filter_congr
  intro i hi
  rw [List.mem_range] at hi
  by_cases h0 : i = l'.length
  · simp [h0]
  congr 1
  have a : i - 1 < l'.length := by omega
  have b : i < l'.length := by omega
  rw [List.getElem?_eq_getElem a, List.getElem?_eq_getElem b, List.getElem?_eq_getElem (by omega : i - 1 < l.length), List.getElem?_eq_getElem (by omega : i < l.length)]
  dsimp only
  exact congrArg _ (hs _ _ _ _ (h.get (by omega) a) (h.get (by omega) b))

/-- what sampling keeps of the blocks of `IT`, whatever the type of the positions: the triplets of the groups of more than `threshold` triplets
come from the first positions of the block, in an order where groups are together; the samplings of these groups end; something is written of each block -/
def LevelCut (threshold : Nat) (c : Cols) (on : String) (across : List String) (rs : List (DBFun Nat)) (IT S' : List Tri) : Prop :=
  ∀ t ∈ IT, Spec.combinations c rs (IT.filter (Spec.sameBlock on across t)) ≤ 2 ^ 53 →
    ∀ ty, fitIntegerType (Spec.combinations c rs (IT.filter (Spec.sameBlock on across t)) : Nat) false = .ok ty →
    ((∃ O : List Tri, O.Perm (IT.filter (Spec.sameBlock on across t)) ∧ Together (Spec.sameGroup c on across rs) O ∧
      ∀ u ∈ S', Spec.sameBlock on across t u = true → threshold < (IT.filter (Spec.sameGroup c on across rs u)).length → u ∈ O.take ty.hi.toNat) ∧
    ∀ u ∈ IT, Spec.sameBlock on across t u = true → threshold < (IT.filter (Spec.sameGroup c on across rs u)).length →
      ∃ src sm, sampleT ty threshold (IT.filter (Spec.sameGroup c on across rs u)).length src = .ok sm) ∧ ∃ u ∈ S', Spec.sameBlock on across t u = true

theorem combinations_sim {cols : List String} {c : Cols} {rs : List (DBFun Nat)} (hrs : ∀ f ∈ rs, ∀ v ∈ f.inputs, v.1 ∈ cols) {l l' : List Tri}
    (h : List.Forall₂ (Sim3 cols) l l') : Spec.combinations c rs l = Spec.combinations c rs l' := by
  unfold Spec.combinations
  refine congrArg List.prod ?_
  apply List.map_congr_left
  intro f hf
  rw [forall₂_map_eq h (fun t u htu => regValue_sim (hrs f (List.mem_filter.mp hf).1) htu)]

/-- the output of a level -/
structure LevelMain (e : Env) (N : Num) (threshold : Nat) (a : Args ρ) (T : Task ρ) (key : List Val) (os : List BlkOut) (S' : List Tri) : Prop where
  trips : os.flatMap BlkOut.trips = S'.map lab
  sub : ∀ t ∈ S', t ∈ tripsSpec a key
  perm : threshold = 0 → S'.Perm (tripsSpec a key)
  count : N.Exact → GroupFit threshold a.cols a.on a.across (allRegs e a) (tripsSpec a key) → ∀ t ∈ tripsSpec a key,
    (S'.filter (Spec.sameGroup a.cols a.on a.across (allRegs e a) t)).length =
      keepCount threshold ((tripsSpec a key).filter (Spec.sameGroup a.cols a.on a.across (allRegs e a) t)).length
  nodup : N.Exact → GroupFit threshold a.cols a.on a.across (allRegs e a) (tripsSpec a key) → S'.Nodup
  together : N.Exact → GroupFit threshold a.cols a.on a.across (allRegs e a) (tripsSpec a key) →
    Together (Spec.sameGroup a.cols a.on a.across (allRegs e a)) S'
  regs : (T.regressors.ops .A = [] ∨ (T.filters.ops .ABX ≠ [] ∧ T.regressors.ops .B ++ T.regressors.ops .X ≠ [])) → os ≠ [] →
    (os.map BlkOut.regs).foldl appendCols [] = (colRegs T.regressors).map (fun f => S'.map (Spec.regValue a.cols f))
  cut : N.Exact → threshold ≠ 0 → LevelCut threshold a.cols a.on a.across (allRegs e a) (tripsSpec a key) S'

/-- what is known of the triplets `Q` of a level that are written with a threshold: the given number of each group when the type of the positions holds
the size of the blocks (`GroupFit`), and what `LevelCut` says whatever this type -/
structure Sampled (e : Env) (N : Num) (threshold : Nat) (a : Args ρ) (key : List Val) (Q : List Tri) : Prop where
  fit : N.Exact → GroupFit threshold a.cols a.on a.across (allRegs e a) (tripsSpec a key) → Q.Nodup ∧ ∀ t ∈ tripsSpec a key,
    (Q.filter (Spec.sameGroup a.cols a.on a.across (allRegs e a) t)).length =
      keepCount threshold ((tripsSpec a key).filter (Spec.sameGroup a.cols a.on a.across (allRegs e a) t)).length
  cut : N.Exact → threshold ≠ 0 → LevelCut threshold a.cols a.on a.across (allRegs e a) (tripsSpec a key) Q

/-- the blocks of a level -/
def LevelBlocks (e : Env) (N : Num) (threshold : Nat) (a : Args ρ) (key : List Val) (os : List BlkOut) (S' : List Tri) : Prop :=
  ∃ parts : List (List Tri), parts.flatten = S' ∧ List.Forall₂ (fun o part => o.trips = part.map lab ∧
    (∀ t ∈ part, ∀ u ∈ part, Spec.sameBlock a.on a.across t u = true) ∧
    (threshold = 0 → N.Exact → GroupFit 0 a.cols a.on a.across (allRegs e a) (tripsSpec a key) →
      o.index = Spec.runBounds (Spec.sameGroup a.cols a.on a.across (allRegs e a)) part)) os parts

theorem level_main {e : Env} (he : e.Lawful) {a : Args ρ} (ha : a.OK) {T : Task ρ} (h : init e a = .ok T) {L : Level ρ} (hL : L ∈ T.levels)
    (hpos : Positional L.frame) {N : Num} (hN : ArgsortLaw N.argsort) {threshold : Nat}
    {src : List Val → List Val → Nat → Src} (hl : ∀ k k' j, (src k k' j).Lawful) {os : List BlkOut}
    (ho : levelOut e N threshold src T L = .ok os) : ∃ S', LevelMain e N threshold a T L.key os S' ∧ LevelBlocks e N threshold a L.key os S' := by
  obtain ⟨fr0, I⟩ := init_level he ha h hL
  have hc := (init_ok h).1
  obtain ⟨h1, h2, h3, h4⟩ := checkDatabase_ok hc
  have H := I.hyp
  have R := I.reg
  obtain ⟨outs, Ss, Ss', hK, rfl⟩ := levelOut_ok H R hpos hN hl ho
  have hperm := level_perm H hK
  have hsub := hK.sub
  have inR : ∀ f ∈ allRegs e a, ∀ v ∈ f.inputs, v.1 ∈ a.columns := by
    intro f hf
    rcases List.mem_append.mp hf with hf | hf
    · exact ha.inR f hf
    · exact defaultRegs_in he hc ha f hf
  have sim : List.Forall₂ (Sim3 a.columns) (Spec.itemTriplets T.cols T.on (userAcross T.across) a.filters fr0) (tripsSpec a L.key) := by
    rw [I.cols, I.on, I.across]
    exact itemTriplets_sim h1 h2 ha.inF I.sim
  obtain ⟨S', hS', hmem⟩ := forall₂_choose sim (fun t ht => hperm.mem_iff.mp (hsub t ht))
  have hlab : S'.map lab = Ss'.flatten.map lab := by
    symm
    refine forall₂_map_eq hS' ?_
    rintro t u ⟨⟨a1, _⟩, ⟨b1, _⟩, ⟨x1, _⟩⟩
    simp only [lab, a1, b1, x1]
  have h2' : ∃ f ∈ allRegs e a, f.inputs = [(T.on, Ext.two)] := by
    refine ⟨columnReg e a.db (a.on, .two), ?_, by rw [I.on]; rfl⟩
    simp [allRegs, defaultRegs]
  have groups := fun (hE : N.Exact) (hf : GroupFit threshold a.cols a.on a.across (allRegs e a) (tripsSpec a L.key)) =>
    keys_groups H R h2' hE (by rw [I.cols, I.on, I.across]; rw [I.cols, I.on, I.across] at sim; exact groupFit_sim h1 h2 inR sim hf) hK (nodup_groupKeys H.lawful)
  have nd : Ss'.flatten.Nodup → S'.Nodup := by
    intro hn
    have : (Ss'.flatten.map lab).Nodup := by
      refine List.Nodup.map_on ?_ hn
      intro t ht u hu hl
      have g1 := (mem_itemTriplets H).mp (hperm.mem_iff.mp (hsub t ht))
      have g2 := (mem_itemTriplets H).mp (hperm.mem_iff.mp (hsub u hu))
      exact lab_inj H ⟨g1.1, g1.2.1, g1.2.2.1⟩ ⟨g2.1, g2.2.1, g2.2.2.1⟩ hl
    rw [← hlab] at this
    exact List.Nodup.of_map _ this
  refine ⟨S', ⟨by rw [hlab]; exact hK.trips, hmem, ?_, ?_, ?_, ?_, ?_, ?cut⟩, ?_⟩
  case cut =>
    intro hE h0 t ht hc' ty hty
    obtain ⟨t0, ht0, st⟩ := forall₂_mem_right sim t ht
    have sim' := sim
    rw [I.cols, I.on, I.across] at sim'
    have hb : List.Forall₂ (Sim3 a.columns) ((Spec.itemTriplets a.cols a.on a.across a.filters fr0).filter (Spec.sameBlock a.on a.across t0))
        ((tripsSpec a L.key).filter (Spec.sameBlock a.on a.across t)) := forall₂_filter (fun u u' hu => sameBlock_sim h1 h2 st hu) sim'
    have hgl : ∀ {u0 u : Tri}, Sim3 a.columns u0 u →
        ((Spec.itemTriplets a.cols a.on a.across a.filters fr0).filter (Spec.sameGroup a.cols a.on a.across (allRegs e a) u0)).length =
          ((tripsSpec a L.key).filter (Spec.sameGroup a.cols a.on a.across (allRegs e a) u)).length := fun su => (forall₂_filter (fun v v' hv => sameGroup_sim (c := a.cols) h1 h2 inR su hv) sim').length_eq
    have hcomb : _ = _ := combinations_sim (c := a.cols) inR hb
    obtain ⟨⟨⟨O, o1, o2, o3⟩, k2⟩, k3⟩ := keys_cut (ty := ty) H R h2' hE h0 hK (nodup_groupKeys H.lawful) hperm ht0 (by rw [I.cols, I.on, I.across]; exact hcomb.trans_le hc')
      (by rw [I.cols, I.on, I.across]; rw [← hcomb] at hty; exact hty)
    rw [I.cols, I.on, I.across] at o1 o3 k2
    rw [I.on, I.across] at k3
    have oIT : ∀ u ∈ O, u ∈ Spec.itemTriplets a.cols a.on a.across a.filters fr0 := fun u hu => (List.mem_filter.mp (o1.mem_iff.mp hu)).1
    obtain ⟨O', q1, q2⟩ := forall₂_choose hb (fun u hu => o1.mem_iff.mp hu)
    have glab : ∀ {u0 u : Tri}, Sim3 a.columns u0 u → lab u0 = lab u := by
      rintro t u ⟨⟨a1, _⟩, ⟨b1, _⟩, ⟨x1, _⟩⟩
      simp only [lab, a1, b1, x1]
    have good0 : ∀ u ∈ Spec.itemTriplets a.cols a.on a.across a.filters fr0, Good T.cols T.on T.across a.filters fr0 u.1 u.2.1 u.2.2 := by
      intro u hu
      rw [← I.cols, ← I.on, ← I.across] at hu
      exact (mem_itemTriplets H).mp hu
    have nO : O'.Nodup := by
      have : (O.map lab).Nodup := by
        refine List.Nodup.map_on ?_ (o1.nodup_iff.mpr (List.Nodup.filter _ ?_))
        · intro v hv w hw hl
          have g1 := good0 v (oIT v hv)
          have g2 := good0 w (oIT w hw)
          exact lab_inj H ⟨g1.1, g1.2.1, g1.2.2.1⟩ ⟨g2.1, g2.2.1, g2.2.2.1⟩ hl
        · exact List.Nodup.filter _ (prod3_nodup H.distinct.nodup H.distinct.nodup H.distinct.nodup)
      rw [forall₂_map_eq q1 (fun t u htu => glab htu)] at this
      exact List.Nodup.of_map _ this
    refine ⟨⟨⟨O', ?_, ?_, ?_⟩, ?_⟩, ?_⟩
    · refine (List.subperm_of_subset nO q2).perm_of_length_le ?_
      rw [← q1.length_eq, o1.length_eq, hb.length_eq]
    · intro i j k x y z hij hjk hi hj hk hs
      have get : ∀ (n : Nat) (w : Tri), O'[n]? = some w → ∃ w0, O[n]? = some w0 ∧ Sim3 a.columns w0 w := by
        intro n w hw
        obtain ⟨hlt, hw'⟩ := List.getElem?_eq_some_iff.mp hw
        have hlt' : n < O.length := by rw [q1.length_eq]; exact hlt
        refine ⟨O[n], List.getElem?_eq_getElem hlt', ?_⟩
        rw [← hw']
        exact q1.get hlt' hlt
      obtain ⟨x0, hx0, sx⟩ := get i x hi
      obtain ⟨y0, hy0, sy⟩ := get j y hj
      obtain ⟨z0, hz0, sz⟩ := get k z hk
      have gd := fun (w : Tri) (n : Nat) (hw : O[n]? = some w) => good0 w (oIT w (List.mem_of_getElem? hw))
      rw [← sameGroup_sim h1 h2 inR sx sz, ← I.cols, ← I.on, ← I.across, gk_iff H _ (gd x0 i hx0).1 (gd z0 k hz0).1] at hs
      rw [← sameGroup_sim h1 h2 inR sx sy, ← I.cols, ← I.on, ← I.across, gk_iff H _ (gd x0 i hx0).1 (gd y0 j hy0).1]
      refine (o2 i j k _ _ hij hjk ?_ ?_ ?_).symm
      · rw [List.getElem?_map, hx0]; rfl
      · rw [List.getElem?_map, hy0]; rfl
      · rw [List.getElem?_map, hz0]; exact congrArg some hs.symm
    · intro u hu hbl hbig
      obtain ⟨u0, hu0, su⟩ := forall₂_mem_right hS' u hu
      rw [← sameBlock_sim h1 h2 st su] at hbl
      rw [← hgl su] at hbig
      have := o3 u0 hu0 hbl hbig
      obtain ⟨i, hi⟩ := List.mem_iff_getElem?.mp this
      rw [List.getElem?_take] at hi
      split at hi
      · rename_i hlt
        obtain ⟨hil, hio⟩ := List.getElem?_eq_some_iff.mp hi
        have hil' : i < O'.length := by rw [← q1.length_eq]; exact hil
        have hs := q1.get hil hil'
        simp only [List.get_eq_getElem] at hs
        rw [hio] at hs
        have : O'[i] = u := tripsSpec_lab (List.mem_filter.mp (q2 _ (List.getElem_mem hil'))).1 (hmem u hu) ((glab hs).symm.trans (glab su))
        rw [List.mem_iff_getElem?]
        exact ⟨i, by rw [List.getElem?_take, if_pos hlt, List.getElem?_eq_getElem hil', this]⟩
      · cases hi
    · intro u hu hbl hbig
      obtain ⟨u0, hu0, su⟩ := forall₂_mem_right sim' u hu
      rw [← sameBlock_sim h1 h2 st su] at hbl
      rw [← hgl su] at hbig ⊢
      exact k2 u0 hu0 hbl hbig
    · obtain ⟨u0, hu0, hb0⟩ := k3
      obtain ⟨u, hu, su⟩ := forall₂_mem_left hS' u0 hu0
      exact ⟨u, hu, (sameBlock_sim h1 h2 st su).symm.trans hb0⟩
  · intro h0
    subst h0
    have hp := (hK.perm).trans hperm
    have hn : S'.Nodup := nd (hp.nodup_iff.mpr (List.Nodup.filter _ (prod3_nodup H.distinct.nodup H.distinct.nodup H.distinct.nodup)))
    refine (List.subperm_of_subset hn hmem).perm_of_length_le ?_
    rw [← hS'.length_eq, hp.length_eq, sim.length_eq]
  · intro hE hf t ht
    obtain ⟨t0, ht0, hs⟩ := forall₂_mem_right sim t ht
    have := (groups hE hf).1 t0 ht0
    rw [(hperm.filter _).length_eq, I.cols, I.on, I.across] at this
    rw [I.cols, I.on, I.across] at sim
    rw [← (forall₂_filter (fun u u' hu => sameGroup_sim h1 h2 inR hs hu) hS').length_eq,
      ← (forall₂_filter (fun u u' hu => sameGroup_sim h1 h2 inR hs hu) sim).length_eq]
    exact this
  · intro hE hf; exact nd (groups hE hf).2.1
  · intro hE hf i j k x y z hij hjk hi hj hk hs
    have hc := (groups hE hf).2.2
    have get : ∀ (n : Nat) (w : Tri), S'[n]? = some w → ∃ w0, Ss'.flatten[n]? = some w0 ∧ Sim3 a.columns w0 w := by
      intro n w hw
      obtain ⟨hlt, hw'⟩ := List.getElem?_eq_some_iff.mp hw
      have hlt' : n < Ss'.flatten.length := by rw [hS'.length_eq]; exact hlt
      refine ⟨Ss'.flatten[n], List.getElem?_eq_getElem hlt', ?_⟩
      rw [← hw']
      exact hS'.get hlt' hlt
    obtain ⟨x0, hx0, sx⟩ := get i x hi
    obtain ⟨y0, hy0, sy⟩ := get j y hj
    obtain ⟨z0, hz0, sz⟩ := get k z hk
    have gd := fun (w : Tri) (n : Nat) (hw : Ss'.flatten[n]? = some w) => (mem_itemTriplets H).mp (hperm.mem_iff.mp (hsub w (List.mem_of_getElem? hw)))
    rw [← sameGroup_sim h1 h2 inR sx sz, ← I.cols, ← I.on, ← I.across, gk_iff H _ (gd x0 i hx0).1 (gd z0 k hz0).1] at hs
    rw [← sameGroup_sim h1 h2 inR sx sy, ← I.cols, ← I.on, ← I.across, gk_iff H _ (gd x0 i hx0).1 (gd y0 j hy0).1]
    refine (hc i j k _ _ hij hjk ?_ ?_ ?_).symm
    · rw [List.getElem?_map, hx0]; rfl
    · rw [List.getElem?_map, hy0]; rfl
    · rw [List.getElem?_map, hz0]; exact congrArg some hs.symm
  · intro hcond hne
    rw [keys_regs hK hcond, if_neg hne]
    apply List.map_congr_left
    intro f hf
    rw [I.cols]
    refine forall₂_map_eq hS' (fun t u htu => regValue_sim (inR f ?_) htu)
    unfold colRegs at hf
    simp only [List.mem_append, mem_ops] at hf
    have hrs := mgr_ops R.mgr
    have : f ∈ T.regressors.map Placed.op := by
      rcases hf with (((⟨p, hp, _, rfl⟩ | ⟨p, hp, _, rfl⟩) | ⟨p, hp, _, rfl⟩) | ⟨p, hp, _, rfl⟩) | ⟨p, hp, _, rfl⟩ <;> exact List.mem_map_of_mem hp
    rw [hrs] at this
    exact this
  · obtain ⟨parts0, hp1, hp2⟩ := keys_blocks hK
    rw [← hp1] at hS' hlab
    obtain ⟨parts, hq1, hq2⟩ := forall₂_unflatten hS'
    refine ⟨parts, hq1, ?_⟩
    refine forall₂_trans (R := fun o part => ∃ k S, KeySpec N threshold T L a.filters fr0 k (some o) S part) (S := List.Forall₂ (Sim3 a.columns)) ?_ hp2 hq2
    rintro o part0 part ⟨k, S, hk⟩ hsim
    refine ⟨?_, ?_, ?_⟩
    · have := hk.trips
      rw [show o.trips = _ from this]
      refine forall₂_map_eq hsim ?_
      rintro t u ⟨⟨a1, _⟩, ⟨b1, _⟩, ⟨x1, _⟩⟩
      simp only [lab, a1, b1, x1]
    · intro t ht u hu
      obtain ⟨t0, ht0, st⟩ := forall₂_mem_right hsim t ht
      obtain ⟨u0, hu0, su⟩ := forall₂_mem_right hsim u hu
      obtain ⟨g1, k1⟩ := (hk.1.mem t0).mp (hk.sub t0 ht0)
      obtain ⟨g2, k2⟩ := (hk.1.mem u0).mp (hk.sub u0 hu0)
      rw [← sameBlock_sim h1 h2 st su, ← I.on, ← I.across, sameBlock_iff H g1.1 g2.1, k1, k2]
    · intro h0 hE hf
      subst h0
      rw [block_index H R h2' hE (by rw [I.cols, I.on, I.across]; rw [I.cols, I.on, I.across] at sim; exact groupFit_sim h1 h2 inR sim hf) hk]
      rw [I.cols, I.on, I.across]
      exact runBounds_sim hsim (fun x x' y y' hx hy => sameGroup_sim h1 h2 inR hx hy)

end ABX.Task
