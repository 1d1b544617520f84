import Verif.Proofs.ChanceTask
import Verif.Properties.Pipeline
/-!
Lemmas for C109.
-/
namespace ABX.Task
open Sampler SideOps
variable {ρ : Type} {e e' : Env} (hg : e'.groups = e.groups) (hs : e'.sets = e.sets)
include hg in
theorem groupKeys_same : groupKeys e' = groupKeys e := by funext s c f; unfold groupKeys; rw [hg]
include hs in
theorem candidates_same (T : Task ρ) (L : Level ρ) : candidates e' T L = candidates e T L := by funext k b; unfold candidates; rw [hs]
include hs in
theorem onAcrossTriplets_same (T : Task ρ) (L : Level ρ) : onAcrossTriplets e' T L = onAcrossTriplets e T L := by funext k b r; unfold onAcrossTriplets; rw [candidates_same hs]
include hs in
theorem blockTriplets_same (T : Task ρ) (L : Level ρ) : blockTriplets e' T L = blockTriplets e T L := by funext k; unfold blockTriplets; rw [onAcrossTriplets_same hs]
include hs in
theorem blockStats_same (T : Task ρ) (L : Level ρ) : blockStats e' T L = blockStats e T L := by funext k; unfold blockStats; rw [onAcrossTriplets_same hs]
include hg hs in
theorem nbTriplets_same (T : Task ρ) : nbTriplets e' T = nbTriplets e T := by
  unfold nbTriplets
  have : levelNbTriplets (ρ := ρ) e' = levelNbTriplets e := by
    funext T L
    unfold levelNbTriplets levelStats
    rw [groupKeys_same hg, blockStats_same hs]
  rw [this]
include hg hs in
theorem levelOut_same (N : Num) (th : Nat) (src) (T : Task ρ) : levelOut e' N th src T = levelOut e N th src T := by
  funext L
  unfold levelOut
  rw [groupKeys_same hg]
  have : blockOut (ρ := ρ) e' N th src T L = blockOut e N th src T L := by
    funext r k
    unfold blockOut
    rw [blockTriplets_same hs]
  rw [this]
include hg hs in
theorem generate_same (N : Num) (th : Nat) (src) (bl1 bl2 : Nat) (T : Task ρ) : generate e' N th src bl1 bl2 T = generate e N th src bl1 bl2 T := by
  unfold generate
  rw [groupKeys_same hg, nbTriplets_same hg hs, levelOut_same hg hs]
end ABX.Task

namespace ABX.Pipeline
open ABX.Task Pairs SideOps Sampler Distances Score EndToEnd Analyze F64 ABX.Spec
variable {ρ φ δ φ' δ' : Type}

theorem forall₂_fun {α β : Type} {R : α → β → Prop} (hR : ∀ a b b', R a b → R a b' → b = b') {l : List α} {m m' : List β} (h : List.Forall₂ R l m) (h' : List.Forall₂ R l m') : m = m' := by
  induction h generalizing m' with
  | nil => cases h'; rfl
  | cons hab _ ih => cases h' with
    | cons hab' h' => rw [hR _ _ _ hab hab', ih h']

theorem fileOK_unique {e : Env} {N : Num} {threshold : Nat} {src : List Val → List Val → Nat → Src} {T : Task.Task ρ} {F F' : File} {total total' : Int} {t tb t' tb' : IntType} {outs outs' : List (List Val × List BlkOut)}
    (K : FileOK e N threshold src T F total t tb outs) (K' : FileOK e N threshold src T F' total' t' tb' outs') : F = F' := by
  have h1 := K.total_ok.symm.trans K'.total_ok
  cases h1
  have h2 := K.t_ok.symm.trans K'.t_ok
  cases h2
  have h3 := K.tb_ok.symm.trans K'.tb_ok
  cases h3
  have h4 : outs = outs' := forall₂_fun (fun L p q hp hq => by
    have := hp.2.symm.trans hq.2
    injection this with this
    exact Prod.ext (hp.1.trans hq.1.symm) this) K.outs_ok K'.outs_ok
  subst h4
  cases F
  cases F'
  have a := K.data.trans K'.data.symm
  have b := K.bys.trans K'.bys.symm
  have c := K.index.trans K'.index.symm
  have d := K.blocks.trans K'.blocks.symm
  have f := K.regs.trans K'.regs.symm
  simp only at a b c d f
  subst a; subst b; subst c; subst d; subst f
  rfl

/-- the comparison of two distances, as the signs 1, 0 and -1 -/
theorem sign_nearer {lt : δ → δ → Bool} (hlt : ∀ x y, lt x y = true → lt y x = false) {dist : ρ → ρ → Except Err δ} {recs : List ρ} {i j k : Nat} {a b x : ρ} {d d' : δ}
    (ha : recs[i]? = some a) (hb : recs[j]? = some b) (hx : recs[k]? = some x) (hd : dist a x = .ok d) (hd' : dist b x = .ok d') :
    (nearerAt lt dist recs i j k ↔ lt d d' = true) ∧ (nearerAt lt dist recs j i k ↔ lt d' d = true) := by
  constructor
  · constructor
    · rintro ⟨_, _, _, _, _, e1, e2, e3, e4, e5, e6⟩
      rw [ha] at e1; rw [hb] at e2; rw [hx] at e3
      cases e1; cases e2; cases e3
      rw [hd] at e4; rw [hd'] at e5
      cases e4; cases e5
      exact e6
    · intro h
      exact ⟨_, _, _, _, _, ha, hb, hx, hd, hd', h⟩
  · constructor
    · rintro ⟨_, _, _, _, _, e1, e2, e3, e4, e5, e6⟩
      rw [hb] at e1; rw [ha] at e2; rw [hx] at e3
      cases e1; cases e2; cases e3
      rw [hd'] at e4; rw [hd] at e5
      cases e4; cases e5
      exact e6
    · intro h
      exact ⟨_, _, _, _, _, hb, ha, hx, hd', hd, h⟩

/-- the labels of a row, one for each regressor -/
theorem labels_map {rs : List (DBFun Nat)} {idx : DBFun Nat → List Val} {v : DBFun Nat → Nat} {labels : List Val} (h : Spec.IsLabels (rs.map idx) (rs.map v) labels) : labels = rs.map (fun f => ((idx f)[v f]?).getD (.int 0)) := by
  apply List.ext_getElem?
  intro j
  have hlen : labels.length = rs.length := by rw [h.1, List.length_map]
  by_cases hj : j < rs.length
  · have := h.2 j (idx rs[j]) (v rs[j]) (by rw [List.getElem?_map, List.getElem?_eq_getElem hj]; rfl) (by rw [List.getElem?_map, List.getElem?_eq_getElem hj]; rfl)
    rw [List.getElem?_map, List.getElem?_eq_getElem hj, Option.map_some, ← this, List.getElem?_eq_getElem (by omega : j < labels.length)]
    rfl
  · rw [List.getElem?_eq_none (by omega), List.getElem?_eq_none (by rw [List.length_map]; omega)]

theorem zip_map_self {α β : Type} (g : α → β) (l : List α) : l.zip (l.map g) = l.map (fun x => (x, g x)) := by
  induction l with
  | nil => rfl
  | cons x l ih => rw [List.map_cons, List.zip_cons_cons, ih, List.map_cons]

/-- the default regressors in another order -/
theorem allRegs_perm_env {a : Args ρ} {e e' : Env} (he : e.Lawful) (he' : e'.Lawful) (hs : e'.sort = e.sort) : (allRegs e' a).Perm (allRegs e a) := by
  have hc : ∀ v, columnReg e' a.db v = columnReg e a.db v := by
    intro v
    unfold columnReg
    simp only [hs]
  unfold allRegs defaultRegs
  refine List.Perm.append_left _ ?_
  simp only [hc]
  refine List.Perm.append_left _ ?_
  exact List.Perm.flatMap_right _ ((he'.names _).trans (he.names _).symm)

/-- the results of a level with the regressors in another order -/
theorem results_reordered {rs rs' : List (DBFun Nat)} (hp : rs'.Perm rs) {idx : DBFun Nat → List Val} {key : List Val} {v : DBFun Nat → Tri → Nat} {abx abx' : Tri → ℚ} {S : List Tri} {out out' : List OutRow} (he : ∀ t ∈ S, abx t = abx' t)
    (h : Spec.Results (rs.map idx) key (fun t => rs.map (fun f => v f t)) abx S out) (h' : Spec.Results (rs'.map idx) key (fun t => rs'.map (fun f => v f t)) abx' S out') :
    ∀ o ∈ out, ∃ o' ∈ out', o'.by_ = o.by_ ∧ o'.n = o.n ∧ o'.score = o.score ∧ (rs'.zip o'.labels).Perm (rs.zip o.labels) := by
  obtain ⟨cs, -, m1, r1⟩ := h
  obtain ⟨cs', -, m2, r2⟩ := h'
  intro o ho
  obtain ⟨c, hc, a1, a2, a3, a4, -⟩ := forall₂_mem_right r1 o ho
  obtain ⟨t, ht, rfl⟩ := (m1 c).mp hc
  obtain ⟨o', ho', b1, b2, b3, b4, -⟩ := forall₂_mem_left r2 _ ((m2 _).mpr ⟨t, ht, rfl⟩)
  have hval : ∀ u, ((rs'.map (fun f => v f u) == rs'.map (fun f => v f t)) = (rs.map (fun f => v f u) == rs.map (fun f => v f t))) := by
    intro u
    rw [Bool.eq_iff_iff, beq_iff_eq, beq_iff_eq, List.map_inj_left, List.map_inj_left]
    exact forall_congr' fun f => by rw [hp.mem_iff]
  have hS : S.filter (fun u => rs'.map (fun f => v f u) == rs'.map (fun f => v f t)) = S.filter (fun u => rs.map (fun f => v f u) == rs.map (fun f => v f t)) := List.filter_congr (fun u _ => hval u)
  have hn : o'.n = o.n := by rw [a3, b3, hS]
  refine ⟨o', ho', by rw [a2, b2], hn, ?_, ?_⟩
  · rw [a4, b4, hn, hS]
    have : (S.filter (fun u => rs.map (fun f => v f u) == rs.map (fun f => v f t))).map (fun t => 2 * abx' t - 1) = (S.filter (fun u => rs.map (fun f => v f u) == rs.map (fun f => v f t))).map (fun t => 2 * abx t - 1) := by
      apply List.map_congr_left
      intro u hu
      rw [he u (List.mem_filter.mp hu).1]
    rw [this]
  · rw [labels_map (v := fun f => v f t) a1, labels_map (v := fun f => v f t) b1, zip_map_self, zip_map_self]
    exact hp.map _

end ABX.Pipeline
