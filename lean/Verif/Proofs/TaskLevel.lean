import Verif.Proofs.TaskBlock
/-! Output of a level. -/
namespace ABX.Task
open ExtSort SideOps Sampler
variable {α β γ ρ : Type}

/-- blocks put together: all the triplets of the specification -/
theorem tri_perm {c : Cols} {on : String} {across : List String} {fs : List (DBFun Bool)} {fr : Frame} (hd : fr.Nodup)
    {keys : List (List Val)} (hn : keys.Nodup)
    (hk : ∀ a b x, Good c on across fs fr a b x → keyOf (on :: across) a.2 ∈ keys)
    {Ss : List (List Tri)} (h : List.Forall₂ (fun key S => BlockTri c on across fs fr key S) keys Ss) :
    Ss.flatten.Perm (Spec.itemTriplets c on (userAcross across) fs fr) := by
  have step : ∀ {keys : List (List Val)} {Ss : List (List Tri)}, keys.Nodup →
      List.Forall₂ (fun key S => BlockTri c on across fs fr key S) keys Ss →
      Ss.flatten.Nodup ∧ ∀ t, t ∈ Ss.flatten ↔ Good c on across fs fr t.1 t.2.1 t.2.2 ∧ keyOf (on :: across) t.1.2 ∈ keys := by
    intro keys Ss hn h
    induction h with
    | nil => simp
    | @cons key S keys Ss h0 _ ih =>
      rw [List.nodup_cons] at hn
      obtain ⟨ih1, ih2⟩ := ih hn.2
      constructor
      · rw [List.flatten_cons, List.nodup_append]
        refine ⟨h0.nodup, ih1, ?_⟩
        rintro t ht u hu rfl
        have h1 := ((h0.mem t).mp ht).2
        have h2 := ((ih2 t).mp hu).2
        rw [h1] at h2
        exact hn.1 h2
      · intro t
        rw [List.flatten_cons, List.mem_append, h0.mem, ih2, List.mem_cons]
        tauto
  obtain ⟨s1, s2⟩ := step hn h
  rw [List.perm_ext_iff_of_nodup s1]
  · rintro ⟨a, b, x⟩
    rw [s2]
    simp only [Spec.itemTriplets, List.mem_filter, Bool.and_eq_true]
    have hm : (a, b, x) ∈ Spec.triples fr ↔ a ∈ fr ∧ b ∈ fr ∧ x ∈ fr := mem_prod3
    rw [hm]
    constructor
    · rintro ⟨⟨h1, h2, h3, h4, h5⟩, _⟩
      exact ⟨⟨h1, h2, h3⟩, h4, h5⟩
    · rintro ⟨⟨h1, h2, h3⟩, h4, h5⟩
      have hg : Good c on across fs fr a b x := ⟨h1, h2, h3, h4, h5⟩
      exact ⟨hg, hk a b x hg⟩
  · exact List.Nodup.filter _ (prod3_nodup hd hd hd)

/-- the trips of an optional block output -/
def tripsOf (o : Option BlkOut) : List (Nat × Nat × Nat) := match o with
  | none => []
  | some o => o.trips

/-- output of one key -/
def KeySpec (N : Num) (threshold : Nat) (T : Task ρ) (L : Level ρ) (fs : List (DBFun Bool)) (fr0 : Frame) (key : List Val) (o : Option BlkOut)
    (S S' : List Tri) : Prop :=
  BlockTri T.cols T.on T.across fs fr0 key S ∧
  ((o = none ∧ S = [] ∧ S' = []) ∨
    ∃ out, o = some out ∧ ∃ p ∈ aItems T.on T.across L.frame key, OutSpec N threshold T.cols T.filters T.regressors S S' p.2 out)

theorem KeySpec.trips {N : Num} {threshold : Nat} {T : Task ρ} {L : Level ρ} {fs fr0 key o S S'} (h : KeySpec N threshold T L fs fr0 key o S S') :
    tripsOf o = S'.map lab := by
  rcases h.2 with ⟨rfl, rfl, rfl⟩ | ⟨out, rfl, p, hp, hs⟩
  · rfl
  · exact hs.trips

theorem KeySpec.sub {N : Num} {threshold : Nat} {T : Task ρ} {L : Level ρ} {fs fr0 key o S S'} (h : KeySpec N threshold T L fs fr0 key o S S') :
    ∀ t ∈ S', t ∈ S := by
  rcases h.2 with ⟨rfl, rfl, rfl⟩ | ⟨out, rfl, p, hp, hs⟩
  · simp
  · exact hs.sub

theorem KeySpec.perm {N : Num} {T : Task ρ} {L : Level ρ} {fs fr0 key o S S'} (h : KeySpec N 0 T L fs fr0 key o S S') :
    S'.Perm S := by
  rcases h.2 with ⟨rfl, rfl, rfl⟩ | ⟨out, rfl, p, hp, hs⟩
  · exact .refl _
  · exact hs.perm rfl

/-- blocks of a level, with their triples of items before (`Ss`) and after (`Ss'`) sorting and sampling -/
inductive KeySpecs (N : Num) (threshold : Nat) (T : Task ρ) (L : Level ρ) (fs : List (DBFun Bool)) (fr0 : Frame) :
    List (List Val) → List (Option BlkOut) → List (List Tri) → List (List Tri) → Prop where
  | nil : KeySpecs N threshold T L fs fr0 [] [] [] []
  | cons {k o S S' ks os Ss Ss'} : KeySpec N threshold T L fs fr0 k o S S' → KeySpecs N threshold T L fs fr0 ks os Ss Ss' →
      KeySpecs N threshold T L fs fr0 (k :: ks) (o :: os) (S :: Ss) (S' :: Ss')

theorem KeySpecs.tri {N : Num} {threshold : Nat} {T : Task ρ} {L : Level ρ} {fs fr0 ks os Ss Ss'} (h : KeySpecs N threshold T L fs fr0 ks os Ss Ss') :
    List.Forall₂ (fun key S => BlockTri T.cols T.on T.across fs fr0 key S) ks Ss := by
  induction h with
  | nil => exact .nil
  | cons h _ ih => exact .cons h.1 ih

theorem KeySpecs.trips {N : Num} {threshold : Nat} {T : Task ρ} {L : Level ρ} {fs fr0 ks os Ss Ss'} (h : KeySpecs N threshold T L fs fr0 ks os Ss Ss') :
    (os.filterMap id).flatMap BlkOut.trips = Ss'.flatten.map lab := by
  induction h with
  | nil => rfl
  | @cons k o S S' ks os Ss Ss' h _ ih =>
    have := h.trips
    cases o with
    | none => simp [tripsOf] at this; rw [List.filterMap_cons_none rfl, ih, List.flatten_cons, this]; rfl
    | some o => simp only [tripsOf] at this; rw [List.filterMap_cons_some (f := id) (a := some o) (b := o) rfl, List.flatMap_cons, ih, List.flatten_cons, List.map_append, this]

theorem KeySpecs.sub {N : Num} {threshold : Nat} {T : Task ρ} {L : Level ρ} {fs fr0 ks os Ss Ss'} (h : KeySpecs N threshold T L fs fr0 ks os Ss Ss') :
    ∀ t ∈ Ss'.flatten, t ∈ Ss.flatten := by
  induction h with
  | nil => simp
  | cons h _ ih =>
    intro t ht
    rw [List.flatten_cons, List.mem_append] at ht ⊢
    rcases ht with ht | ht
    · exact Or.inl (h.sub t ht)
    · exact Or.inr (ih t ht)

theorem KeySpecs.perm {N : Num} {T : Task ρ} {L : Level ρ} {fs fr0 ks os Ss Ss'} (h : KeySpecs N 0 T L fs fr0 ks os Ss Ss') :
    Ss'.flatten.Perm Ss.flatten := by
  induction h with
  | nil => exact .refl _
  | cons h _ ih => rw [List.flatten_cons, List.flatten_cons]; exact h.perm.append ih

/-- which regressors read B or X -/
theorem readsBX_iff {T : Task ρ} {rs : List (DBFun Nat)} (R : RegHyp T rs) (hABX : T.regressors.ops .ABX = []) :
    ∀ q ∈ T.regressors, Spec.readsBX T.cols q.op = true ↔ (q.stage = .B ∨ q.stage = .X) := by
  intro q hq
  have P := R.mgrOK q hq
  have hnotABX : q.stage ≠ .ABX := by
    intro h
    have : q.op ∈ T.regressors.ops .ABX := mem_ops.mpr ⟨q, hq, h, rfl⟩
    rw [hABX] at this; simp at this
  have hnotgen : q.stage ≠ .generic := fun h => by simpa using P.hgen' h
  unfold Spec.readsBX
  rw [List.any_eq_true]
  constructor
  · rintro ⟨v, hv, hv2⟩
    simp only [Bool.and_eq_true, Bool.not_eq_true', List.contains_eq_mem, decide_eq_false_iff_not] at hv2
    obtain ⟨hvb, hv3⟩ := hv2
    have hc : condition T.cols v = true ∧ (getExt T.cols v = .B ∨ getExt T.cols v = .X) := by
      obtain ⟨r, e⟩ := v
      cases e <;> simp_all [condition, getExt]
      by_cases h : r ∈ T.cols.on <;> simp [h]
    have key : ∀ {s}, q.stage = s → s ≠ .by → s ≠ .onAcrossBy → s ≠ .A → (q.stage = .B ∨ q.stage = .X) := by
      intro s hs h1 h2 h3
      cases s with
      | «by» => exact absurd rfl h1
      | generic => exact absurd hs hnotgen
      | onAcrossBy => exact absurd rfl h2
      | A => exact absurd rfl h3
      | B => exact Or.inl hs
      | X => exact Or.inr hs
      | ABX => exact absurd hs hnotABX
    refine key (s := q.stage) rfl ?_ ?_ ?_
    · intro h; exact hvb (P.hby' h v hv)
    · intro h
      have := P.hoab h v hv hvb
      rw [hc.1] at this; simp at this
    · intro h
      have := (P.aV v (P.hA h v hv hvb hc.1)).2.2
      rcases hc.2 with h' | h' <;> rw [this] at h' <;> simp at h'
  · intro hs
    have hne : q.stage ≠ .by := by rcases hs with h | h <;> simp [h]
    have hoab : q.stage ≠ .onAcrossBy := by rcases hs with h | h <;> simp [h]
    obtain ⟨v, hv, hvb, hvc⟩ := P.hne2 hne hnotgen hoab
    refine ⟨v, hv, ?_⟩
    have hn := P.hnone hne hnotgen v hv hvb
    have hext : getExt T.cols v = .B ∨ getExt T.cols v = .X := by
      rcases hs with h | h
      · exact Or.inl (P.bV v (P.hB h v hv hvb hvc)).2.2
      · exact Or.inr (P.xV v (P.hX h v hv hvb hvc)).2.2
    obtain ⟨r, e⟩ := v
    cases e <;> simp_all [condition, getExt]

section
variable {e : Env} {T : Task ρ} {L : Level ρ} {fs : List (DBFun Bool)} {fr0 : Frame} (H : LevelHyp e T L fs fr0)
include H

/-- every good triple belongs to a block -/
theorem good_key (site : String) {a b x : Nat × Row} (h : Good T.cols T.on T.across fs fr0 a b x) :
    keyOf (T.on :: T.across) a.2 ∈ groupKeys e site (T.on :: T.across) L.frame := by
  rw [mem_groupKeys H.lawful]
  refine ⟨a, ?_, rfl⟩
  obtain ⟨ha, hb, hx, hl, hf⟩ := h
  rw [H.frame, List.mem_filter]
  refine ⟨ha, ?_⟩
  rw [List.all_eq_true]
  intro f hfm
  obtain ⟨p, hp, hs, rfl⟩ := mem_ops.mp hfm
  have hff : p.op ∈ fs := by rw [← mgr_ops H.mgr]; exact List.mem_map_of_mem hp
  have := (List.all_eq_true.mp hf) _ hff
  have P := H.mgrOK p hp
  unfold Spec.holds at this
  rw [if_pos] at this
  · simp only [Bool.and_eq_true] at this; exact this.1.1
  · intro v hv
    by_cases hb : v.1 ∈ T.cols.by_
    · exact Or.inl hb
    · exact Or.inr (P.genV v (P.hgen hs v hv hb)).2

theorem level_perm {N : Num} {threshold : Nat} {os Ss Ss' site} (h : KeySpecs N threshold T L fs fr0 (groupKeys e site (T.on :: T.across) L.frame) os Ss Ss') :
    Ss.flatten.Perm (Spec.itemTriplets T.cols T.on (userAcross T.across) fs fr0) :=
  tri_perm H.distinct.nodup (nodup_groupKeys H.lawful) (fun _ _ _ hg => good_key H site hg) h.tri

theorem levelOut_ok {rs : List (DBFun Nat)} (R : RegHyp T rs) (hpos : Positional L.frame) {N : Num} (ha : ArgsortLaw N.argsort) {threshold : Nat}
    {src : List Val → List Val → Nat → Src} (hl : ∀ k k' j, (src k k' j).Lawful) {os : List BlkOut}
    (h : levelOut e N threshold src T L = .ok os) :
    ∃ outs Ss Ss', KeySpecs N threshold T L fs fr0 (groupKeys e "gen" (T.on :: T.across) L.frame) outs Ss Ss' ∧ os = outs.filterMap id := by
  unfold levelOut at h
  split at h
  · cases h
  rename_i row0 hrow0
  rw [byRegs_ok R.mgrOK] at h
  simp only [] at h
  split at h
  · cases h
  rename_i outs houts
  injection h with h
  have hF := sequence_inv houts
  have key : ∀ (keys : List (List Val)) (outs : List (Option BlkOut)), (∀ k ∈ keys, ∃ p ∈ L.frame, keyOf (T.on :: T.across) p.2 = k) →
      List.Forall₂ (fun k o => blockOut e N threshold src T L ((T.regressors.ops .by).map (fun f => f.fn (fun v => row0 v.1))) k = .ok o) keys outs →
      ∃ Ss Ss', KeySpecs N threshold T L fs fr0 keys outs Ss Ss' := by
    intro keys outs hk hF
    induction hF with
    | nil => exact ⟨[], [], .nil⟩
    | @cons k o ks os h0 _ ih =>
      obtain ⟨Ss, Ss', ih⟩ := ih (fun k hk' => hk k (by simp [hk']))
      obtain ⟨p, hp, S, hS, h1⟩ := blockOut_ok H R hpos ha hl hrow0 (hk k (by simp)) h0
      rcases h1 with ⟨rfl, rfl⟩ | ⟨out, S', rfl, h2⟩
      · exact ⟨[] :: Ss, [] :: Ss', .cons ⟨hS, Or.inl ⟨rfl, rfl, rfl⟩⟩ ih⟩
      · exact ⟨S :: Ss, S' :: Ss', .cons ⟨hS, Or.inr ⟨out, rfl, p, hp, h2⟩⟩ ih⟩
  obtain ⟨Ss, Ss', hK⟩ := key _ _ (fun k hk => (mem_groupKeys H.lawful).mp hk) hF
  exact ⟨outs, Ss, Ss', hK, h.symm⟩

theorem sameBlock_iff {t u : Tri} (ht : t.1 ∈ fr0) (hu : u.1 ∈ fr0) :
    Spec.sameBlock T.on (userAcross T.across) t u = true ↔ keyOf (T.on :: T.across) t.1.2 = keyOf (T.on :: T.across) u.1.2 := by
  unfold Spec.sameBlock userAcross
  by_cases h : T.across = ["#across"]
  · rw [if_pos h, h]
    have : t.1.2 "#across" = u.1.2 "#across" ↔ t.1.1 = u.1.1 := by
      constructor
      · exact H.dum h _ ht _ hu
      · intro e; rw [H.distinct.inj ht hu e]
    simp [keyOf, this]
  · rw [if_neg h]
    have := H.across
    simp [keyOf, this]

/-- sorting regressors: those that read B or X -/
theorem keyRow_iff {rs : List (DBFun Nat)} (R : RegHyp T rs) (hABX : T.regressors.ops .ABX = []) {key : List Val} {p : Nat × Row}
    (hp : p ∈ aItems T.on T.across L.frame key) {t u : Tri}
    (ht : Good T.cols T.on T.across fs fr0 t.1 t.2.1 t.2.2) (htk : keyOf (T.on :: T.across) t.1.2 = key)
    (hu : Good T.cols T.on T.across fs fr0 u.1 u.2.1 u.2.2) (huk : keyOf (T.on :: T.across) u.1.2 = key) :
    keyRow (sortFns T.cols T.regressors p.2) t = keyRow (sortFns T.cols T.regressors p.2) u ↔
      Spec.sameGroup T.cols T.on (userAcross T.across) rs t u = true := by
  have vt := fun (t : Tri) (ht : Good T.cols T.on T.across fs fr0 t.1 t.2.1 t.2.2) (htk : keyOf (T.on :: T.across) t.1.2 = key) => by
    obtain ⟨s1, s2, s3⟩ := share H hp ht htk
    exact reg_value R.mgrOK R.availM s1 s2 s3
  have e1 : keyRow (sortFns T.cols T.regressors p.2) t = keyRow (sortFns T.cols T.regressors p.2) u ↔
      (∀ f ∈ T.regressors.ops .B, Spec.regValue T.cols f t = Spec.regValue T.cols f u) ∧
      (∀ f ∈ T.regressors.ops .X, Spec.regValue T.cols f t = Spec.regValue T.cols f u) := by
    unfold keyRow sortFns
    rw [List.map_inj_left]
    simp only [List.mem_append, List.mem_map]
    constructor
    · intro h
      constructor
      · intro f hf
        rw [← (vt t ht htk).2.2.2.1 f hf, ← (vt u hu huk).2.2.2.1 f hf]
        exact h _ (Or.inl ⟨f, hf, rfl⟩)
      · intro f hf
        rw [← (vt t ht htk).2.2.2.2 f hf, ← (vt u hu huk).2.2.2.2 f hf]
        exact h _ (Or.inr ⟨f, hf, rfl⟩)
    · rintro ⟨h1, h2⟩ k (⟨f, hf, rfl⟩ | ⟨f, hf, rfl⟩)
      · rw [(vt t ht htk).2.2.2.1 f hf, (vt u hu huk).2.2.2.1 f hf]; exact h1 f hf
      · rw [(vt t ht htk).2.2.2.2 f hf, (vt u hu huk).2.2.2.2 f hf]; exact h2 f hf
  have e2 := readsBX_iff R hABX
  rw [e1]
  unfold Spec.sameGroup
  have hrs : rs = T.regressors.map Placed.op := (mgr_ops R.mgr).symm
  rw [(sameBlock_iff H ht.1 hu.1).mpr (htk.trans huk.symm), hrs, List.all_map]
  simp only [Bool.true_and, List.all_eq_true, Function.comp, Bool.or_eq_true, Bool.not_eq_true', beq_iff_eq]
  constructor
  · rintro ⟨h1, h2⟩ q hq
    by_cases hr : Spec.readsBX T.cols q.op = true
    · right
      rcases (e2 q hq).mp hr with h | h
      · exact h1 _ (mem_ops.mpr ⟨q, hq, h, rfl⟩)
      · exact h2 _ (mem_ops.mpr ⟨q, hq, h, rfl⟩)
    · left; simpa using hr
  · intro h
    constructor <;> intro f hf <;> obtain ⟨q, hq, hs, rfl⟩ := mem_ops.mp hf <;> rcases h q hq with h' | h'
    · rw [(e2 q hq).mpr (Or.inl hs)] at h'; simp at h'
    · exact h'
    · rw [(e2 q hq).mpr (Or.inr hs)] at h'; simp at h'
    · exact h'

/-- values of the sorting functions -/
theorem sortFns_value {rs : List (DBFun Nat)} (R : RegHyp T rs) {key : List Val} {p : Nat × Row}
    (hp : p ∈ aItems T.on T.across L.frame key) {S : List Tri} (hS : BlockTri T.cols T.on T.across fs fr0 key S) :
    (sortFns T.cols T.regressors p.2).map (fun k => S.map k) =
      (T.regressors.ops .B ++ T.regressors.ops .X).map (fun f => S.map (Spec.regValue T.cols f)) := by
  have vt := fun (t : Tri) (ht : t ∈ S) => by
    obtain ⟨h1, h2⟩ := (hS.mem t).mp ht
    obtain ⟨s1, s2, s3⟩ := share H hp h1 h2
    exact reg_value R.mgrOK R.availM s1 s2 s3
  unfold sortFns
  rw [List.map_append, List.map_map, List.map_map, List.map_append]
  congr 1 <;> apply List.map_congr_left <;> intro f hf <;> apply List.map_congr_left <;> intro t ht
  · exact (vt t ht).2.2.2.1 f hf
  · exact (vt t ht).2.2.2.2 f hf

/-- the block of the specification is the block of the code -/
theorem block_eq {key : List Val} {S IT : List Tri} (hS : BlockTri T.cols T.on T.across fs fr0 key S)
    (hIT : IT.Perm (Spec.itemTriplets T.cols T.on (userAcross T.across) fs fr0)) {t : Tri} (ht : t ∈ S) :
    S.Perm (IT.filter (Spec.sameBlock T.on (userAcross T.across) t)) := by
  obtain ⟨h1, h2⟩ := (hS.mem t).mp ht
  rw [List.perm_ext_iff_of_nodup hS.nodup]
  · intro u
    rw [hS.mem, List.mem_filter, hIT.mem_iff]
    have hm : u ∈ Spec.itemTriplets T.cols T.on (userAcross T.across) fs fr0 ↔ Good T.cols T.on T.across fs fr0 u.1 u.2.1 u.2.2 := by
      obtain ⟨a, b, x⟩ := u
      have hm : (a, b, x) ∈ Spec.triples fr0 ↔ a ∈ fr0 ∧ b ∈ fr0 ∧ x ∈ fr0 := mem_prod3
      simp only [Spec.itemTriplets, List.mem_filter, hm, Bool.and_eq_true, Good, and_assoc]
    rw [hm]
    constructor
    · rintro ⟨hu, hk⟩
      exact ⟨hu, (sameBlock_iff H h1.1 hu.1).mpr (h2.trans hk.symm)⟩
    · rintro ⟨hu, hk⟩
      exact ⟨hu, ((sameBlock_iff H h1.1 hu.1).mp hk).symm.trans h2⟩
  · apply List.Nodup.filter
    rw [hIT.nodup_iff]
    exact List.Nodup.filter _ (prod3_nodup H.distinct.nodup H.distinct.nodup H.distinct.nodup)

end

theorem prod_perm {l l' : List Nat} (h : l.Perm l') : l.prod = l'.prod := by
  induction h with
  | nil => rfl
  | cons x _ ih => simp [ih]
  | swap x y l => simp [Nat.mul_left_comm]
  | trans _ _ h1 h2 => exact h1.trans h2

theorem foldl_max_perm {l l' : List Nat} (h : l.Perm l') (a : Nat) : l.foldl max a = l'.foldl max a := by
  apply h.foldl_eq

/-- the regressors of B and X in the two orders -/
theorem readsBX_perm {T : Task ρ} {rs : List (DBFun Nat)} (R : RegHyp T rs) (hABX : T.regressors.ops .ABX = []) :
    (T.regressors.ops .B ++ T.regressors.ops .X).Perm (rs.filter (Spec.readsBX T.cols)) := by
  have hrs : rs = T.regressors.map Placed.op := (mgr_ops R.mgr).symm
  have key : ∀ (m : Mgr Nat), (∀ q ∈ m, Spec.readsBX T.cols q.op = true ↔ (q.stage = .B ∨ q.stage = .X)) →
      (m.ops .B ++ m.ops .X).Perm ((m.map Placed.op).filter (Spec.readsBX T.cols)) := by
    intro m hm
    induction m with
    | nil => exact .refl _
    | cons q m ih =>
      have ih := ih (fun r hr => hm r (by simp [hr]))
      have hq := hm q (by simp)
      have ops : ∀ s, Mgr.ops (q :: m) s = if q.stage = s then q.op :: Mgr.ops m s else Mgr.ops m s := by
        intro s
        by_cases h : q.stage = s <;> simp [Mgr.ops, Mgr.at, h]
      rw [ops, ops, List.map_cons]
      by_cases hB : q.stage = .B
      · rw [List.filter_cons_of_pos (hq.mpr (Or.inl hB))]
        simp only [hB, if_true]
        exact ih.cons _
      · by_cases hX : q.stage = .X
        · rw [List.filter_cons_of_pos (hq.mpr (Or.inr hX))]
          simp only [hX, if_true]
          exact List.perm_middle.trans (ih.cons _)
        · rw [List.filter_cons_of_neg (by rw [hq]; tauto)]
          simp only [hB, hX, if_false]
          exact ih
  rw [hrs]
  exact key _ (readsBX_iff R hABX)

theorem combinations_eq {T : Task ρ} {rs : List (DBFun Nat)} (R : RegHyp T rs) (hABX : T.regressors.ops .ABX = []) {S blk : List Tri} (hS : S.Perm blk) :
    (nRegs ((T.regressors.ops .B ++ T.regressors.ops .X).map (fun f => S.map (Spec.regValue T.cols f)))).prod = Spec.combinations T.cols rs blk := by
  unfold nRegs Spec.combinations
  rw [List.map_map]
  refine (prod_perm ((readsBX_perm R hABX).map _)).trans ?_
  congr 1
  apply List.map_congr_left
  intro f _
  simp only [Function.comp]
  rw [foldl_max_perm (hS.map _)]

theorem contig_append {l l' : List γ} (h : Contig l) (h' : Contig l') (hd : ∀ x ∈ l, x ∉ l') : Contig (l ++ l') := by
  intro i j k x y hij hjk hi hj hk
  by_cases h1 : k < l.length
  · rw [List.getElem?_append_left (by omega)] at hi hj hk
    exact h i j k x y hij hjk hi hj hk
  · rw [List.getElem?_append_right (by omega)] at hk
    by_cases h2 : i < l.length
    · rw [List.getElem?_append_left h2] at hi
      exact absurd (List.mem_of_getElem? hk) (hd x (List.mem_of_getElem? hi))
    · rw [List.getElem?_append_right (by omega)] at hi hj
      exact h' _ _ _ x y (by omega) (by omega) hi hj hk

/-- the conditions under which groups are well formed: few combinations of regressors, blocks small with respect to
the type that holds the number of combinations -/
def GroupFit (threshold : Nat) (c : Cols) (on : String) (across : List String) (rs : List (DBFun Nat)) (IT : List Tri) : Prop :=
  ∀ t ∈ IT, Spec.combinations c rs (IT.filter (Spec.sameBlock on across t)) ≤ 2 ^ 53 ∧
    (threshold = 0 ∨ ∀ ty, fitIntegerType (Spec.combinations c rs (IT.filter (Spec.sameBlock on across t)) : Nat) false = .ok ty →
      ((IT.filter (Spec.sameBlock on across t)).length : Int) ≤ ty.hi)

section
variable {e : Env} {T : Task ρ} {L : Level ρ} {fs : List (DBFun Bool)} {fr0 : Frame} (H : LevelHyp e T L fs fr0)
include H

/-- the sort of a non-empty block is by at least one regressor -/
theorem sortFns_ne {rs : List (DBFun Nat)} (R : RegHyp T rs) (h2 : ∃ f ∈ rs, f.inputs = [(T.on, .two)]) (row : Row) {t : Tri}
    (ht : Good T.cols T.on T.across fs fr0 t.1 t.2.1 t.2.2) : sortFns T.cols T.regressors row ≠ [] := by
  have hby : T.on ∉ T.cols.by_ := by
    intro hb
    have hl := ht.2.2.2.1
    simp [Spec.legal] at hl
    exact hl.1.1.2 (H.fd.by_ _ ht.2.1 _ ht.1 _ hb)
  obtain ⟨f, hf, hi⟩ := h2
  rw [← mgr_ops R.mgr] at hf
  obtain ⟨q, hq, rfl⟩ := List.mem_map.mp hf
  have P := R.mgrOK q hq
  have mem : (T.on, Ext.two) ∈ q.op.inputs := by rw [hi]; simp
  have hc : condition T.cols (T.on, Ext.two) = true := by simp [condition]
  have e1 : getExt T.cols (T.on, Ext.two) ≠ .A := by unfold getExt; simp only [if_true]; split <;> simp
  have stage : q.stage = .B ∨ q.stage = .X := by
    cases hs : q.stage with
    | «by» => exact absurd (P.hby' hs _ mem) hby
    | generic => have := P.hgen' hs; simp at this
    | onAcrossBy =>
      have := P.hoab hs _ mem hby
      rw [hc] at this; simp at this
    | A => exact absurd (P.aV _ (P.hA hs _ mem hby hc)).2.2 e1
    | B => exact Or.inl rfl
    | X => exact Or.inr rfl
    | ABX =>
      exfalso
      exact P.hABXmix hs _ hi
  unfold sortFns
  rcases stage with hs | hs
  · have : q.op ∈ T.regressors.ops .B := mem_ops.mpr ⟨q, hq, hs, rfl⟩
    intro h; simp at h; rw [h.1] at this; simp at this
  · have : q.op ∈ T.regressors.ops .X := mem_ops.mpr ⟨q, hq, hs, rfl⟩
    intro h; simp at h; rw [h.2] at this; simp at this

end
end ABX.Task
