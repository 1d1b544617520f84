import Verif.Proofs.RegInfoFile
import Verif.Properties.TaskWitness
/-!
C89: the names and the indexes of the regressors in the task file, and the labels that the analysis finds with them.
-/
namespace ABX.RegInfo
open ExtSort ABX.Task SideOps H5IO

/-- the regressors on columns of the table, with the index that `DBfun_Column` has (dbfun_column.py 14-22) -/
def IsColumn (e : Env) (a : Args ρ) (kind : DBFun Nat → Kind) : Prop :=
  (∀ f ∈ a.regressors, ∃ v, f = columnReg e a.db v) ∧ ∀ v, kind (columnReg e a.db v) = .column (extName v) (columnIndex e.sort (a.db.map (fun p => p.2 v.1)))

/-- ASCII column names and labels, among those of the regressors -/
def Ascii (e : Env) (a : Args ρ) : Prop :=
  ∀ v, columnReg e a.db v ∈ allRegs e a → (∀ c ∈ v.1.toList, c.toNat < 128) ∧ ∀ p ∈ a.db, ∀ s, p.2 v.1 = .str s → ∀ c ∈ s.toList, c.toNat < 128

theorem asciiVal_iff {x : Val} : asciiVal x = true ↔ ∀ s, x = .str s → ∀ c ∈ s.toList, c.toNat < 128 := by
  cases x with
  | int n => simp [asciiVal]
  | str s => simp [asciiVal, asciiName]

theorem extName_ascii {v : Var} : (∀ c ∈ (extName v).toList, c.toNat < 128) ↔ ∀ c ∈ v.1.toList, c.toNat < 128 := by
  have hs : ∀ c ∈ (suffix v.2).toList, c.toNat < 128 := by cases v.2 <;> decide
  unfold extName
  rw [String.toList_append]
  constructor
  · intro h c hc; exact h c (List.mem_append.mpr (.inl hc))
  · intro h c hc
    rcases List.mem_append.mp hc with hc | hc
    · exact h c hc
    · exact hs c hc

/-- the columns of several blocks -/
theorem foldl_appendCols {α τ : Type} {rs : List α} {val : α → τ → Nat} {parts : List (List τ)} (h : parts ≠ []) :
    (parts.map (fun p => rs.map (fun f => p.map (val f)))).foldl appendCols [] = rs.map (fun f => parts.flatten.map (val f)) := by
  have acc : ∀ (parts : List (List τ)) (A : List τ), (parts.map (fun p => rs.map (fun f => p.map (val f)))).foldl appendCols (rs.map (fun f => A.map (val f))) =
      rs.map (fun f => (A ++ parts.flatten).map (val f)) := by
    intro parts
    induction parts with
    | nil => intro A; simp
    | cons p parts ih =>
      intro A
      rw [List.map_cons, List.foldl_cons, appendCols_map]
      have := ih (A ++ p)
      simp only [List.map_append] at this ⊢
      rw [this]
      simp [List.append_assoc]
  cases parts with
  | nil => exact absurd rfl h
  | cons p parts =>
    have e1 : ∀ l : List (List Nat), appendCols [] l = l := fun l => by cases l <;> rfl
    rw [List.map_cons, List.foldl_cons, e1, acc]
    rfl

/-- `C89_file_partial`, with the rows in the file -/
theorem file_columns {e : Env} (he : e.Lawful) {a : Args ρ} (ha : a.OK) (hf : Spec'.KeptFirst a) {T : Task.Task ρ} (h : Task.init e a = .ok T)
    {N : Num} (hN : ArgsortLaw N.argsort) {threshold : Nat} {src : List Val → List Val → Nat → Sampler.Src} (hs : ∀ k k' j, (src k k' j).Lawful)
    (hA : (∀ f ∈ a.regressors, ABX.Spec.readsA a.cols f = false) ∨ (T.filters.ops .ABX ≠ [] ∧ a.on ∈ a.cols.on ∧ a.on ∉ a.cols.by_))
    {kind : DBFun Nat → Kind} (hc : IsColumn e a kind) (hascii : Ascii e a) (hw : (allRegs e a).length < 2500)
    {place : List Val → String} {f0 : File Val} (hp : (T.levels.map (fun L => place L.key)).Nodup)
    (hnew : ∀ L ∈ T.levels, place L.key ∉ keysOf f0.groups ∧ (place L.key, "indexed_data") ∉ keysOf f0.data)
    {outs : Level ρ → List BlkOut} (ho : ∀ L ∈ T.levels, levelOut e N threshold src T L = .ok (outs L)) (hne : ∃ L ∈ T.levels, outs L ≠ []) :
    ∃ (f' : File Val) (vars : List Var), regFile kind place e N threshold src f0 T = .ok f' ∧
      vars = uniq (Pipeline.varsOf (colRegs T.regressors)) ∧ colRegs T.regressors = (Pipeline.varsOf (colRegs T.regressors)).map (columnReg e a.db) ∧ vars.Nodup ∧ (∀ v, v ∈ vars ↔ columnReg e a.db v ∈ allRegs e a) ∧ (vars.map extName).Nodup ∧
      (∀ L ∈ T.levels, readNames f' (place L.key) = .ok (vars.map extName) ∧
        readIndexes f' (place L.key) = .ok (vars.map (fun v => columnIndex e.sort (a.db.map (fun p => p.2 v.1)))) ∧
        ∃ S : List Tri, (outs L).flatMap BlkOut.trips = S.map (fun t => (t.1.1, t.2.1.1, t.2.2.1)) ∧ (∀ t ∈ S, t ∈ tripsSpec a L.key) ∧
          (outs L ≠ [] → readLabels f' (place L.key) = .ok (S.map (fun t => vars.map (fun v => ABX.Spec.sem a.cols t.1.2 t.2.1.2 t.2.2.2 v)))) ∧
          (outs L = [] → ∃ er, readLabels f' (place L.key) = .error er) ∧
          (outs L ≠ [] → ((outs L).map BlkOut.regs).foldl appendCols [] = (colRegs T.regressors).map (fun f => S.map (ABX.Spec.regValue a.cols f)) ∧
            readRows f' (place L.key) = .ok (S.map (fun t => vars.map (fun v => ABX.Spec.regValue a.cols (columnReg e a.db v) t))))) ∧
      (∀ k, (∀ L ∈ T.levels, k ≠ place L.key) → f'.groups.lookup k = f0.groups.lookup k) ∧
      ∀ x : String × String, (∀ L ∈ T.levels, x.1 ≠ place L.key) → f'.data.lookup x = f0.data.lookup x := by
  obtain ⟨L0, hL0, hne0⟩ := hne
  obtain ⟨fr0, I0⟩ := init_level he ha h hL0
  have hck := (Task.init_ok h).1
  have hreg : mgr false a.cols (allRegs e a) = .ok T.regressors := by
    have := I0.reg.mgr
    rw [I0.cols] at this
    exact this
  have habx := levelOut_abx (ho L0 hL0) hne0
  have hcol := allRegs_columns hc.1
  have hdb : a.db ≠ [] := by
    obtain ⟨p, hp, -⟩ := I0.keyMem
    intro hnil
    have := prep_length a
    rw [hnil, List.length_nil, List.length_eq_zero_iff] at this
    rw [this] at hp
    cases hp
  have hix : ∀ v, ixOf e a v ≠ [] := by
    intro v hnil
    obtain ⟨p, hp⟩ := List.exists_mem_of_ne_nil _ hdb
    have : p.2 v.1 ∈ ixOf e a v := (mem_ixOf he).mpr ⟨p, hp, rfl⟩
    rw [hnil] at this
    cases this
  have hflat := fieldVars_flatten habx
  have hregs := colRegs_perm hreg habx
  have hvars : colRegs T.regressors = (Pipeline.varsOf (colRegs T.regressors)).map (columnReg e a.db) := varsOf_map (fun f hf => hcol f (hregs.mem_iff.mp hf))
  have hmem : ∀ v, v ∈ (fieldVars T.regressors).flatten ↔ columnReg e a.db v ∈ allRegs e a := by
    intro v
    rw [hflat, ← hregs.mem_iff]
    constructor
    · intro hv; rw [hvars]; exact List.mem_map_of_mem hv
    · intro hv
      rw [hvars] at hv
      obtain ⟨w, hw, hwv⟩ := List.mem_map.mp hv
      rw [← columnReg_inj hwv]; exact hw
  have hcond : T.regressors.ops .A = [] ∨ (T.filters.ops .ABX ≠ [] ∧ T.regressors.ops .B ++ T.regressors.ops .X ≠ []) := by
    rcases hA with hA | ⟨h1, h2, h3⟩
    · left
      apply regA_nil hreg
      intro f hf
      rcases List.mem_append.mp hf with hf | hf
      · exact hA f hf
      · exact defaultRegs_readsA f hf
    · right
      refine ⟨h1, ?_⟩
      have := on2_stage (e := e) hreg (a := a) h2 h3
      intro hnil
      rw [List.append_eq_nil_iff] at hnil
      exact this hnil.1
  have hchoice : ∀ L : Level ρ, ∃ parts : List (List Tri), L ∈ T.levels →
      List.Forall₂ (fun o part => o.trips = part.map lab ∧ o.regs = (colRegs T.regressors).map (fun f => part.map (ABX.Spec.regValue a.cols f))) (outs L) parts ∧
      ∀ part ∈ parts, ∀ t ∈ part, t ∈ tripsSpec a L.key := by
    intro L
    by_cases hL : L ∈ T.levels
    · obtain ⟨parts, hp⟩ := level_parts he ha h hL (positional he ha hf h hL) hN hs hcond (ho L hL)
      exact ⟨parts, fun _ => hp⟩
    · exact ⟨[], fun h => absurd h hL⟩
  obtain ⟨parts, hparts⟩ := Classical.axiomOfChoice hchoice
  have hpne : ∀ L ∈ T.levels, (parts L = [] ↔ outs L = []) := by
    intro L hL
    have := (hparts L hL).1.length_eq
    rw [← List.length_eq_zero_iff, ← List.length_eq_zero_iff, this]
  let val : Var → Tri → Nat := fun v t => ABX.Spec.regValue a.cols (columnReg e a.db v) t
  let fs := fieldVars T.regressors
  have hval : ∀ L ∈ T.levels, ∀ v, ∀ p ∈ parts L, ∀ t ∈ p, (ixOf e a v)[val v t]? = some (ABX.Spec.sem a.cols t.1.2 t.2.1.2 t.2.2.2 v) :=
    fun L hL v p hp t ht => ixOf_value he ((hparts L hL).2 p hp t ht) v
  have hinj : ∀ x ∈ fs.flatten, ∀ y ∈ fs.flatten, extName x = extName y → x = y := by
    intro x hx y hy hxy
    exact extName_inj (no_underscore hck _ (allRegs_in he ha hck ((hmem x).mp hx))) (no_underscore hck _ (allRegs_in he ha hck ((hmem y).mp hy))) hxy
  obtain ⟨f', w1, w2, w3, w4⟩ := writeLevels_columns (ascii := asciiVal) (nm := extName) (ix := ixOf e a) (fs := fs) (val := val)
    (by
      have : columnReg e a.db (a.on, .one) ∈ allRegs e a := by unfold allRegs defaultRegs; simp
      intro hnil
      have := (hmem _).mpr this
      rw [hnil] at this
      cases this)
    hinj hix (fun v hv => extName_ascii.mpr (hascii v ((hmem v).mp hv)).1)
    (by
      intro v hv x hx
      obtain ⟨p, hp, rfl⟩ := (mem_ixOf he).mp hx
      exact asciiVal_iff.mpr ((hascii v ((hmem v).mp hv)).2 p hp))
    (by
      intro v _
      have h1 := ixOf_length he (a := a) (v := v)
      have h2 := ha.size
      have h3 : 0 < a.db.length := List.length_pos_of_ne_nil hdb
      have h4 : a.db.length ≤ a.db.length * a.db.length := Nat.le_mul_of_pos_left _ h3
      have h5 : a.db.length * a.db.length ≤ a.db.length * a.db.length * a.db.length := Nat.le_mul_of_pos_right _ h3
      omega)
    (by
      have h1 : (uniq fs.flatten).length ≤ fs.flatten.length := (List.subperm_of_subset (uniq_nodup _) (fun x hx => mem_uniq.mp hx)).length_le
      have h2 : fs.flatten.length = (allRegs e a).length := by
        have := congrArg List.length hvars
        rw [List.length_map, ← hflat] at this
        rw [← hregs.length_eq, this]
      omega)
    (T.levels.map (fun L => (place L.key, parts L))) f0 (by rw [List.map_map]; exact hp)
    (by intro p hp; obtain ⟨L, hL, rfl⟩ := List.mem_map.mp hp; exact hnew L hL)
    (by
      intro q hq v _ p hp t ht
      obtain ⟨L, hL, rfl⟩ := List.mem_map.mp hq
      have := hval L hL v p hp t ht
      exact (List.getElem?_eq_some_iff.mp this).1)
  have hnd : ((uniq fs.flatten).map extName).Nodup :=
    List.Nodup.map_on (fun x hx y hy hxy => hinj x (mem_uniq.mp hx) y (mem_uniq.mp hy) hxy) (uniq_nodup _)
  have hfst : ∀ k, (∀ L ∈ T.levels, k ≠ place L.key) → k ∉ (T.levels.map (fun L => (place L.key, parts L))).map Prod.fst := by
    intro k hk hmem
    rw [List.map_map] at hmem
    obtain ⟨L, hL, hLk⟩ := List.mem_map.mp hmem
    exact hk L hL hLk.symm
  refine ⟨f', uniq fs.flatten, ?_, by rw [← hflat], hvars, uniq_nodup _, fun v => mem_uniq.trans (hmem v), hnd, ?_, fun k hk => w3 k (hfst k hk), fun x hx => w4 x (.inl (hfst _ hx))⟩
  · unfold regFile
    have hseq : sequence (T.levels.map (fun L => (levelOut e N threshold src T L).map (fun o => (L.key, o)))) = .ok (T.levels.map (fun L => (L.key, outs L))) :=
      sequence_map_ok (fun L hL => by rw [ho L hL]; rfl)
    rw [hseq]
    dsimp only
    rw [fieldsOf_columns hreg hcol hc.2, List.map_map]
    rw [← w1, List.map_map]
    congr 1
    apply List.map_congr_left
    intro L hL
    dsimp only [Function.comp]
    congr 1
    have hmap : (outs L).map BlkOut.regs = (parts L).map (fun p => (colRegs T.regressors).map (fun f => p.map (ABX.Spec.regValue a.cols f))) :=
      forall₂_map_eq (hparts L hL).1 (fun o p hop => hop.2)
    rw [hmap]
    apply List.map_congr_left
    intro p _
    rw [hvars, List.map_map, hflat]
    rfl
  · intro L hL
    have st := w2 (place L.key, parts L) (List.mem_map.mpr ⟨L, hL, rfl⟩)
    refine ⟨st.names, st.indexes hnd, (parts L).flatten, ?_, ?_, ?_, ?_, ?_⟩
    · have : (outs L).map BlkOut.trips = (parts L).map (fun p => p.map lab) := forall₂_map_eq (hparts L hL).1 (fun o p hop => hop.1)
      rw [List.flatMap_def, this, ← List.map_flatten]
    · intro t ht
      obtain ⟨p, hp, ht⟩ := List.mem_flatten.mp ht
      exact (hparts L hL).2 p hp t ht
    · intro hne
      exact st.labels hnd (fun hnil => hne ((hpne L hL).mp hnil)) (fun v _ p hp t ht => hval L hL v p hp t ht)
    · intro hnil
      have := st.data
      rw [if_pos ((hpne L hL).mpr hnil)] at this
      refine ⟨.keyError, ?_⟩
      unfold readLabels
      rw [st.indexes hnd]
      unfold readRows
      dsimp only
      rw [this]
    · intro hne
      have hpn : parts L ≠ [] := fun hnil => hne ((hpne L hL).mp hnil)
      have hmap : (outs L).map BlkOut.regs = (parts L).map (fun p => (colRegs T.regressors).map (fun f => p.map (ABX.Spec.regValue a.cols f))) :=
        forall₂_map_eq (hparts L hL).1 (fun o p hop => hop.2)
      exact ⟨by rw [hmap, foldl_appendCols hpn], st.rows hpn⟩

/-- C89 for tasks whose regressors are columns (this includes the default ones) with ASCII names and labels, when filters on bare columns keep the first items, and under the condition of C10 on regressors of A:
the file can be written, every level has the same names, which are those of the regressors, each once; and at every row of a level the labels that the analysis reads with the indexes are the values of these
columns for the triplet of that row.  Missing: regressors that are scripts, for which the claim is false if several levels have triplets (`C89_scripts`); other labels are rejected (`C89_ascii`). -/
theorem C89_file_partial {e : Env} (he : e.Lawful) {a : Args ρ} (ha : a.OK) (hf : Spec'.KeptFirst a) {T : Task.Task ρ} (h : Task.init e a = .ok T)
    {N : Num} (hN : ArgsortLaw N.argsort) {threshold : Nat} {src : List Val → List Val → Nat → Sampler.Src} (hs : ∀ k k' j, (src k k' j).Lawful)
    (hA : (∀ f ∈ a.regressors, ABX.Spec.readsA a.cols f = false) ∨ (T.filters.ops .ABX ≠ [] ∧ a.on ∈ a.cols.on ∧ a.on ∉ a.cols.by_))
    {kind : DBFun Nat → Kind} (hc : IsColumn e a kind) (hascii : Ascii e a) (hw : (allRegs e a).length < 2500)
    {place : List Val → String} {f0 : File Val} (hp : (T.levels.map (fun L => place L.key)).Nodup)
    (hnew : ∀ L ∈ T.levels, place L.key ∉ keysOf f0.groups ∧ (place L.key, "indexed_data") ∉ keysOf f0.data)
    {outs : Level ρ → List BlkOut} (ho : ∀ L ∈ T.levels, levelOut e N threshold src T L = .ok (outs L)) (hne : ∃ L ∈ T.levels, outs L ≠ []) :
    ∃ (f' : File Val) (vars : List Var), regFile kind place e N threshold src f0 T = .ok f' ∧
      vars.Nodup ∧ (∀ v, v ∈ vars ↔ columnReg e a.db v ∈ allRegs e a) ∧ (vars.map extName).Nodup ∧
      (∀ L ∈ T.levels, readNames f' (place L.key) = .ok (vars.map extName) ∧
        readIndexes f' (place L.key) = .ok (vars.map (fun v => columnIndex e.sort (a.db.map (fun p => p.2 v.1)))) ∧
        ∃ S : List Tri, (outs L).flatMap BlkOut.trips = S.map (fun t => (t.1.1, t.2.1.1, t.2.2.1)) ∧ (∀ t ∈ S, t ∈ tripsSpec a L.key) ∧
          (outs L ≠ [] → readLabels f' (place L.key) = .ok (S.map (fun t => vars.map (fun v => ABX.Spec.sem a.cols t.1.2 t.2.1.2 t.2.2.2 v)))) ∧
          (outs L = [] → ∃ er, readLabels f' (place L.key) = .error er)) ∧
      (∀ k, (∀ L ∈ T.levels, k ≠ place L.key) → f'.groups.lookup k = f0.groups.lookup k) ∧
      ∀ x : String × String, (∀ L ∈ T.levels, x.1 ≠ place L.key) → f'.data.lookup x = f0.data.lookup x := by
  obtain ⟨f', vars, h1, -, -, h2, h3, h4, h5, h6, h7⟩ := file_columns he ha hf h hN hs hA hc hascii hw hp hnew ho hne
  refine ⟨f', vars, h1, h2, h3, h4, fun L hL => ?_, h6, h7⟩
  obtain ⟨d1, d2, S, d3, d4, d5, d6, -⟩ := h5 L hL
  exact ⟨d1, d2, S, d3, d4, d5, d6⟩

theorem forall₂_split {α β : Type} {R : α → β → Prop} : ∀ {l1 l2 : List α} {u : List β}, List.Forall₂ R (l1 ++ l2) u → ∃ u1 u2, List.Forall₂ R l1 u1 ∧ List.Forall₂ R l2 u2 ∧ u = u1 ++ u2
  | [], _, u, h => ⟨[], u, .nil, h, rfl⟩
  | _ :: l1, l2, _, .cons h1 h2 => by
    obtain ⟨u1, u2, a1, a2, rfl⟩ := forall₂_split h2
    exact ⟨_ :: u1, u2, .cons h1 a1, a2, rfl⟩

/-- what `regFile` writes, when it does -/
theorem regFile_ok {e : Env} {N : Num} {threshold : Nat} {src : List Val → List Val → Nat → Sampler.Src} {kind : DBFun Nat → Kind} {place : List Val → String} {f0 f' : File Val} {T : Task.Task ρ}
    (h : regFile kind place e N threshold src f0 T = .ok f') : ∃ outs : List (List BlkOut), List.Forall₂ (fun L o => levelOut e N threshold src T L = .ok o) T.levels outs ∧
      writeLevels asciiVal (fieldsOf kind T.regressors) f0 ((T.levels.zip outs).map (fun p => (place p.1.key, p.2.map BlkOut.regs))) = .ok f' := by
  unfold regFile at h
  split at h
  · cases h
  rename_i outs ho
  have key : ∀ {ls : List (Level ρ)} {os : List (List Val × List BlkOut)}, List.Forall₂ (fun L o => (levelOut e N threshold src T L).map (fun o => (L.key, o)) = Except.ok o) ls os →
      List.Forall₂ (fun L o => levelOut e N threshold src T L = .ok o) ls (os.map Prod.snd) ∧
        os.map (fun p => (place p.1, p.2.map BlkOut.regs)) = (ls.zip (os.map Prod.snd)).map (fun p => (place p.1.key, p.2.map BlkOut.regs)) := by
    intro ls
    induction ls with
    | nil => intro os h; cases h; exact ⟨.nil, rfl⟩
    | cons L ls ih =>
      intro os h
      cases h with
      | cons h1 h2 =>
        obtain ⟨i1, i2⟩ := ih h2
        cases hl : levelOut e N threshold src T L with
        | error er => rw [hl] at h1; cases h1
        | ok o =>
          rw [hl] at h1
          obtain rfl := Except.ok.inj h1
          exact ⟨.cons hl i1, by rw [List.map_cons, List.map_cons, List.zip_cons_cons, List.map_cons, i2]⟩
  obtain ⟨k1, k2⟩ := key (sequence_inv ho)
  exact ⟨_, k1, by rw [← k2]; exact h⟩

/-- C89: a regressor on a column whose name or one of whose labels is not ASCII makes the generation fail, whatever the task. -/
theorem C89_ascii {e : Env} (he : e.Lawful) {a : Args ρ} (ha : a.OK) {T : Task.Task ρ} (h : Task.init e a = .ok T) (hl : T.levels ≠ [])
    {N : Num} {threshold : Nat} {src : List Val → List Val → Nat → Sampler.Src}
    {kind : DBFun Nat → Kind} (hc : IsColumn e a kind) (hascii : ¬ Ascii e a) (place : List Val → String) (f0 : File Val) :
    ∃ er, regFile kind place e N threshold src f0 T = .error er := by
  cases hr : regFile kind place e N threshold src f0 T with
  | error er => exact ⟨er, rfl⟩
  | ok f' =>
    exfalso
    apply hascii
    obtain ⟨L0, hL0⟩ := List.exists_mem_of_ne_nil _ hl
    obtain ⟨fr0, I0⟩ := init_level he ha h hL0
    have hck := (Task.init_ok h).1
    have hreg : mgr false a.cols (allRegs e a) = .ok T.regressors := by
      have := I0.reg.mgr
      rw [I0.cols] at this
      exact this
    have hcol := allRegs_columns hc.1
    have hdb : a.db ≠ [] := by
      obtain ⟨p, hp, -⟩ := I0.keyMem
      intro hnil
      have := prep_length a
      rw [hnil, List.length_nil, List.length_eq_zero_iff] at this
      rw [this] at hp
      cases hp
    have hix : ∀ v, ixOf e a v ≠ [] := by
      intro v hnil
      obtain ⟨p, hp⟩ := List.exists_mem_of_ne_nil _ hdb
      have : p.2 v.1 ∈ ixOf e a v := (mem_ixOf he).mpr ⟨p, hp, rfl⟩
      rw [hnil] at this
      cases this
    have hmem : ∀ v, v ∈ (fieldVars T.regressors).flatten ↔ columnReg e a.db v ∈ allRegs e a := by
      have hs : ∀ s v, v ∈ Pipeline.varsOf (T.regressors.ops s) ↔ columnReg e a.db v ∈ T.regressors.ops s := by
        intro s v
        have hv := varsOf_map (fun f hf => hcol f (ops_all hreg (s := s) hf))
        constructor
        · intro hm; rw [hv]; exact List.mem_map_of_mem hm
        · intro hm
          rw [hv] at hm
          obtain ⟨w, hw, hwv⟩ := List.mem_map.mp hm
          rw [← columnReg_inj hwv]; exact hw
      intro v
      constructor
      · intro hv
        simp only [fieldVars, List.map_cons, List.map_nil, List.flatten_cons, List.flatten_nil, List.append_nil, List.mem_append, hs] at hv
        rcases hv with hv | hv | hv | hv | hv | hv <;> exact ops_all hreg hv
      · intro hv
        obtain ⟨s, hs', hv⟩ := mem_fields hreg hv
        simp only [fieldVars, List.map_cons, List.map_nil, List.flatten_cons, List.flatten_nil, List.append_nil, List.mem_append, hs]
        simp only [List.mem_cons, List.not_mem_nil, or_false] at hs'
        rcases hs' with rfl | rfl | rfl | rfl | rfl | rfl <;> simp [hv]
    obtain ⟨outs, o1, o2⟩ := regFile_ok hr
    rw [fieldsOf_columns hreg hcol hc.2] at o2
    cases hlev : T.levels with
    | nil => exact absurd hlev hl
    | cons L ls =>
      rw [hlev] at o1 o2
      cases o1 with
      | @cons _ o _ os i1 i2 =>
        rw [List.zip_cons_cons, List.map_cons, writeLevels] at o2
        split at o2
        · cases o2
        rename_i f1 hw
        unfold writeLevel at hw
        split at hw
        · rename_i f2 g hi
          obtain ⟨-, st, -⟩ := C67_accepts.mp ⟨f2, g, hi⟩
          rw [info_columns hix, update_uniq (fun x hx y hy hxy => extName_inj (no_underscore hck _ (allRegs_in he ha hck ((hmem x).mp hx)))
            (no_underscore hck _ (allRegs_in he ha hck ((hmem y).mp hy))) hxy)] at st
          intro v hv
          have hv' := (hmem v).mpr hv
          constructor
          · refine extName_ascii.mp (st.names _ ?_)
            exact List.mem_map_of_mem hv'
          · intro p hp
            refine asciiVal_iff.mp ((st.values (extName v, ixOf e a v) (List.mem_map.mpr ⟨v, mem_uniq.mpr hv', rfl⟩)).2 _ ((mem_ixOf he).mpr ⟨p, hp, rfl⟩))
        · cases hw
        · cases hw

/-- C89 is false with scripts: if one of the regressors is a script (they have no names, dbfun_compute.py 37, so that they are called `reg_0`, `reg_1`, ...) then no task with triplets in two levels can be generated.
(The column of a script is stored at the root of the file, h5io.py 164; the second level finds it there.) -/
theorem C89_scripts {e : Env} (he : e.Lawful) {a : Args ρ} (ha : a.OK) {T : Task.Task ρ} (h : Task.init e a = .ok T)
    {N : Num} {threshold : Nat} {src : List Val → List Val → Nat → Sampler.Src} {kind : DBFun Nat → Kind}
    {f : DBFun Nat} (hf : f ∈ a.regressors) {n : Nat} (hk : kind f = .script (n + 1) none)
    (hname : ∀ f' ∈ allRegs e a, ∀ name index, kind f' = .column name index → ∀ i : Nat, name ≠ "reg_" ++ toString i)
    {L L' : Level ρ} (hL : L ∈ T.levels) (hL' : L' ∈ T.levels) (hLL : L ≠ L') {os os' : List BlkOut} (ho : levelOut e N threshold src T L = .ok os) (ho' : levelOut e N threshold src T L' = .ok os')
    (hne : os ≠ []) (hne' : os' ≠ []) (place : List Val → String) (f0 : File Val) :
    ∃ er, regFile kind place e N threshold src f0 T = .error er := by
  cases hr : regFile kind place e N threshold src f0 T with
  | error er => exact ⟨er, rfl⟩
  | ok f' =>
    exfalso
    obtain ⟨fr0, I0⟩ := init_level he ha h hL
    have hreg : mgr false a.cols (allRegs e a) = .ok T.regressors := by
      have := I0.reg.mgr
      rw [I0.cols] at this
      exact this
    obtain ⟨s, hs, hfs⟩ := mem_fields hreg (List.mem_append.mpr (.inl hf) : f ∈ allRegs e a)
    have hfl : kind f ∈ (fieldsOf kind T.regressors).flatten := by
      rw [List.mem_flatten]
      refine ⟨(T.regressors.ops s).map kind, ?_, List.mem_map_of_mem hfs⟩
      unfold fieldsOf
      rw [List.mem_map]
      refine ⟨T.regressors.ops s, ?_, rfl⟩
      simp only [List.mem_cons, List.not_mem_nil, or_false] at hs ⊢
      rcases hs with rfl | rfl | rfl | rfl | rfl | rfl <;> simp
    obtain ⟨i, hi⟩ := fetchAll_scripts hk 0 hfl
    have hi1 : "reg_" ++ toString i ∈ (info (fieldsOf kind T.regressors)).1 := hi
    have hi2 : "reg_" ++ toString i ∉ keysOf (info (fieldsOf kind T.regressors)).2 := by
      intro hx
      have hx' : "reg_" ++ toString i ∈ keysOf (update [] ((fetchAll 0 (fieldsOf kind T.regressors)).flatMap (fun f => f.2.flatten))) := hx
      rw [keysOf_update] at hx'
      rcases hx' with hx' | hx'
      · simp [keysOf] at hx'
      obtain ⟨x, hx', hxi⟩ := List.mem_map.mp hx'
      obtain ⟨l, hl, hxl⟩ := List.mem_flatten.mp (fetchAll_keys _ _ _ hx')
      obtain ⟨ops, hops, rfl⟩ := List.mem_map.mp hl
      obtain ⟨f', hf', hkf⟩ := List.mem_map.mp hxl
      refine hname f' ?_ x.1 x.2 hkf i hxi
      simp only [List.mem_cons, List.not_mem_nil, or_false] at hops
      rcases hops with rfl | rfl | rfl | rfl | rfl | rfl <;> exact ops_all hreg hf'
    obtain ⟨outs, o1, o2⟩ := regFile_ok hr
    have main : ∀ {L L' : Level ρ} {os os' : List BlkOut} {l1 l2 : List (Level ρ)}, T.levels = l1 ++ L :: l2 → L' ∈ l2 → levelOut e N threshold src T L = .ok os →
        levelOut e N threshold src T L' = .ok os' → os ≠ [] → os' ≠ [] → False := by
      intro L L' os os' l1 l2 hsp hL' ho ho' hne hne'
      rw [hsp] at o1 o2
      obtain ⟨u1, u2, e1, e2, rfl⟩ : ∃ u1 u2, List.Forall₂ (fun L o => levelOut e N threshold src T L = .ok o) l1 u1 ∧ List.Forall₂ (fun L o => levelOut e N threshold src T L = .ok o) (L :: l2) u2 ∧
          outs = u1 ++ u2 := forall₂_split o1
      rw [List.zip_append e1.length_eq, List.map_append] at o2
      obtain ⟨f1, -, o2⟩ := writeLevels_append o2
      cases e2 with
      | @cons _ o _ us j1 j2 =>
        rw [ho] at j1
        obtain rfl := Except.ok.inj j1
        rw [List.zip_cons_cons, List.map_cons, writeLevels] at o2
        split at o2
        · cases o2
        rename_i f2 hw
        obtain ⟨-, d2⟩ := writeLevel_data hw
        obtain ⟨⟨y, hy⟩, -⟩ := d2 _ hi1 hi2 (by simpa using hne)
        obtain ⟨-, b2⟩ := writeLevels_data o2
        have hmem' : ∀ {ls : List (Level ρ)} {us : List (List BlkOut)}, List.Forall₂ (fun L o => levelOut e N threshold src T L = .ok o) ls us → L' ∈ ls → (L', os') ∈ ls.zip us := by
          intro ls us hfa hin
          induction hfa with
          | nil => cases hin
          | cons hx _ ih =>
            rw [List.zip_cons_cons, List.mem_cons]
            rcases List.mem_cons.mp hin with rfl | hin
            · rw [ho'] at hx; obtain rfl := Except.ok.inj hx; exact .inl rfl
            · exact .inr (ih hin)
        have := b2 _ (List.mem_map.mpr ⟨(L', os'), hmem' j2 hL', rfl⟩) _ hi1 hi2 (by simpa using hne')
        rw [hy] at this
        cases this
    obtain ⟨l1, l2, hsp⟩ := List.append_of_mem hL
    rw [hsp] at hL'
    rcases List.mem_append.mp hL' with hin | hin
    · obtain ⟨k1, k2, hk12⟩ := List.append_of_mem hin
      exact main (L := L') (L' := L) (l1 := k1) (l2 := k2 ++ L :: l2) (by rw [hsp, hk12]; simp) (by simp) ho' ho hne' hne
    · rcases List.mem_cons.mp hin with rfl | hin
      · exact hLL rfl
      · exact main hsp hin ho ho' hne hne'

/-! ### examples -/

/-- columns are regressors with one input -/
def kind0 (e : Env) (a : Args ρ) (f : DBFun Nat) : Kind := match f.inputs with
  | [v] => .column (extName v) (columnIndex e.sort (a.db.map (fun p => p.2 v.1)))
  | _ => .script 1 none

def place0 : List Val → String
  | [.int n] => "regressors/" ++ toString n ++ "/"
  | _ => ""

/-- the file of a task -/
def file0 (a : Args Nat) : Except Err (File Val) := match Task.init E0 a with
  | .error er => .error er
  | .ok T => regFile (kind0 E0 a) place0 E0 N0 0 (fun _ _ _ => src0) ⟨[], []⟩ T

/-- names and labels at a place -/
def read0 (a : Args Nat) (group : String) : Except Err (List String × List (List Val)) := match file0 a with
  | .error er => .error er
  | .ok f => match readNames f group with
    | .error er => .error er
    | .ok names => (readLabels f group).map (fun l => (names, l))

/-- two levels with triplets -/
def exTwo (rs : List (DBFun Nat)) : Args Nat := args0 [mk "a" 1, mk "b" 1, mk "a" 2, mk "a" 1 1, mk "b" 1 1, mk "a" 2 1] [] rs ["sp"]

/-- two columns are asked for; one of them is a default regressor -/
def exDup : Args Nat := exTwo [columnReg E0 (exTwo []).db ("sp", .B), columnReg E0 (exTwo []).db ("on", .one)]

theorem exDup_ok : exDup.OK := Args.OK.flat rfl (by decide +kernel) (by intro f hf; cases hf)
  (by intro f hf; simp only [exDup, exTwo, args0, List.mem_cons, List.not_mem_nil, or_false] at hf
      rcases hf with rfl | rfl <;> constructor <;> simp [columnReg, exDup, exTwo, args0])
  (by intro f hf; cases hf)
  (by intro f hf; simp only [exDup, exTwo, args0, List.mem_cons, List.not_mem_nil, or_false] at hf
      rcases hf with rfl | rfl <;> simp [columnReg, exDup, exTwo, args0]) (by decide +kernel)

/-- the names appear once, in the order in which the manager takes the regressors -/
theorem exDup_read : read0 exDup "regressors/0/" = .ok (["sp_B", "on_1", "ac_1", "on_2", "ac_2"], [[.int 0, .str "a", .int 1, .str "b", .int 2]]) ∧
    read0 exDup "regressors/1/" = .ok (["sp_B", "on_1", "ac_1", "on_2", "ac_2"], [[.int 1, .str "a", .int 1, .str "b", .int 2]]) := by
  constructor <;> decide +kernel

instance : DecidableEq (List Val × List (List (Nat × Nat × Nat))) := inferInstance

/-- the levels of a task, and the triplets of their blocks -/
def levels0 (a : Args Nat) : Except Err (List (List Val × List (List (Nat × Nat × Nat)))) := match Task.init E0 a with
  | .error er => .error er
  | .ok T => sequence (T.levels.map (fun L => (levelOut E0 N0 0 (fun _ _ _ => src0) T L).map (fun o => (L.key, o.map BlkOut.trips))))

theorem levels0_ok {a : Args Nat} {l : List (List Val × List (List (Nat × Nat × Nat)))} (h : levels0 a = .ok l) :
    ∃ (T : Task.Task Nat) (outs : Level Nat → List BlkOut), Task.init E0 a = .ok T ∧ T.levels.map (fun L => L.key) = l.map Prod.fst ∧
      ∀ L ∈ T.levels, levelOut E0 N0 0 (fun _ _ _ => src0) T L = .ok (outs L) ∧ (L.key, (outs L).map BlkOut.trips) ∈ l := by
  unfold levels0 at h
  split at h
  · cases h
  rename_i T hT
  have hseq := sequence_inv h
  have hch : ∀ L : Level Nat, ∃ o : List BlkOut, L ∈ T.levels → levelOut E0 N0 0 (fun _ _ _ => src0) T L = .ok o ∧ (L.key, o.map BlkOut.trips) ∈ l := by
    intro L
    by_cases hL : L ∈ T.levels
    · obtain ⟨p, hp, hLp⟩ := forall₂_mem_left hseq L hL
      cases ho : levelOut E0 N0 0 (fun _ _ _ => src0) T L with
      | error er => rw [ho] at hLp; cases hLp
      | ok o =>
        rw [ho] at hLp
        obtain rfl := Except.ok.inj hLp
        exact ⟨o, fun _ => ⟨rfl, hp⟩⟩
    · exact ⟨[], fun h => absurd h hL⟩
  obtain ⟨outs, ho⟩ := Classical.axiomOfChoice hch
  refine ⟨T, outs, hT, forall₂_map_eq hseq (fun L p hp => ?_), ho⟩
  cases hl : levelOut E0 N0 0 (fun _ _ _ => src0) T L with
  | error er => rw [hl] at hp; cases hp
  | ok o => rw [hl] at hp; obtain rfl := Except.ok.inj hp; rfl

theorem exDup_levels : levels0 exDup = .ok [([.int 0], [[(0, 1, 2)], [], []]), ([.int 1], [[(0, 1, 2)], [], []])] := by decide +kernel

theorem isColumn0 {e : Env} {a : Args Nat} (h : ∀ f ∈ a.regressors, ∃ v, f = columnReg e a.db v) : IsColumn e a (kind0 e a) := ⟨h, fun _ => rfl⟩

/-- the hypotheses of C89 hold of `exDup` -/
example : ∃ (T : Task.Task Nat) (f' : File Val) (vars : List Var), Task.init E0 exDup = .ok T ∧ T.levels.map (fun L => L.key) = [[.int 0], [.int 1]] ∧
    regFile (kind0 E0 exDup) place0 E0 N0 0 (fun _ _ _ => src0) ⟨[], []⟩ T = .ok f' ∧ vars.Nodup ∧ (∀ v, v ∈ vars ↔ columnReg E0 exDup.db v ∈ allRegs E0 exDup) ∧
    ∀ L ∈ T.levels, readNames f' (place0 L.key) = .ok (vars.map extName) ∧ ∃ (os : List BlkOut) (S : List Tri), levelOut E0 N0 0 (fun _ _ _ => src0) T L = .ok os ∧
      os.flatMap BlkOut.trips = S.map (fun t => (t.1.1, t.2.1.1, t.2.2.1)) ∧
      readLabels f' (place0 L.key) = .ok (S.map (fun t => vars.map (fun v => ABX.Spec.sem exDup.cols t.1.2 t.2.1.2 t.2.2.2 v))) := by
  obtain ⟨T, outs, h1, h2, h3⟩ := levels0_ok exDup_levels
  have hall : ∀ f ∈ exDup.regressors, ∃ v, f = columnReg E0 exDup.db v := by
    intro f hf
    simp only [exDup, exTwo, args0, List.mem_cons, List.not_mem_nil, or_false] at hf
    rcases hf with rfl | rfl <;> exact ⟨_, rfl⟩
  have hne : ∀ L ∈ T.levels, outs L ≠ [] := by
    intro L hL hnil
    have := (h3 L hL).2
    rw [hnil] at this
    simp at this
  obtain ⟨L0, hL0⟩ : ∃ L, L ∈ T.levels := List.exists_mem_of_ne_nil _ (by intro hnil; rw [hnil] at h2; cases h2)
  obtain ⟨f', vars, c1, c2, c3, -, c4, -, -⟩ := C89_file_partial E0_lawful exDup_ok (.of_not_bare (by intro f hf; cases hf)) h1 (N := N0) (threshold := 0) (src := fun _ _ _ => src0)
    insArgsort_law (fun _ _ _ => src0_lawful)
    (Or.inl (by intro f hf
                simp only [exDup, exTwo, args0, List.mem_cons, List.not_mem_nil, or_false] at hf
                rcases hf with rfl | rfl <;> decide +kernel))
    (isColumn0 hall)
    (by
      intro v hv
      have hcols := allRegs_in E0_lawful exDup_ok (by decide +kernel) hv
      have h1 : ∀ c ∈ exDup.columns, ∀ ch ∈ c.toList, ch.toNat < 128 := by decide +kernel
      have h2 : ∀ c ∈ exDup.columns, ∀ p ∈ exDup.db, asciiVal (p.2 c) = true := by decide +kernel
      exact ⟨h1 _ hcols, fun p hp => asciiVal_iff.mp (h2 _ hcols p hp)⟩)
    (by decide +kernel) (place := place0) (f0 := ⟨[], []⟩)
    (by
      have : T.levels.map (fun L => place0 L.key) = (T.levels.map (fun L => L.key)).map place0 := by rw [List.map_map]; rfl
      rw [this, h2]
      decide +kernel)
    (by intro L _; exact ⟨by simp [keysOf], by simp [keysOf]⟩) (fun L hL => (h3 L hL).1) ⟨L0, hL0, hne L0 hL0⟩
  refine ⟨T, f', vars, h1, h2, c1, c2, c3, fun L hL => ?_⟩
  obtain ⟨d1, -, S, d2, -, d3, -⟩ := c4 L hL
  exact ⟨d1, outs L, S, (h3 L hL).1, d2, d3 (hne L hL)⟩

/-- a label that is not ASCII -/
def exAscii : Args Nat := args0 [mk "é" 1, mk "b" 1, mk "é" 2] [] []

theorem exAscii_fails : file0 exAscii = .error .valueError := by decide +kernel

/-- the hypotheses of `C89_ascii` hold of this task -/
example (place : List Val → String) (f0 : File Val) : ∃ (T : Task.Task Nat) (er : Err), Task.init E0 exAscii = .ok T ∧
    regFile (kind0 E0 exAscii) place E0 N0 0 (fun _ _ _ => src0) f0 T = .error er := by
  obtain ⟨T, outs, h1, h2, h3⟩ := levels0_ok (show levels0 exAscii = .ok [([.int 0], [[(0, 1, 2)], [], []])] by decide +kernel)
  obtain ⟨er, he⟩ := C89_ascii (N := N0) (threshold := 0) (src := fun _ _ _ => src0) E0_lawful (a := exAscii) (Args.OK.flat rfl (by decide +kernel) (by intro f hf; cases hf) (by intro f hf; cases hf) (by intro f hf; cases hf)
    (by intro f hf; cases hf) (by decide +kernel)) h1 (by intro hnil; rw [hnil] at h2; cases h2) (isColumn0 (by intro f hf; cases hf))
    (by
      intro h
      have := (h ("on", .one) (by simp [allRegs, exAscii, args0, defaultRegs])).2 (0, mk "é" 1) (by simp [exAscii, args0]) "é" rfl
      revert this
      decide) place f0
  exact ⟨T, er, h1, he⟩

/-- a script: it can be computed when there is one level, not when there are two -/
def script0 : DBFun Nat := ⟨[("sp", .B), ("ac", .B)], fun _ => 0, by intro e e' h; rfl⟩

theorem exScript_fails : (file0 (args0 [mk "a" 1, mk "b" 1, mk "a" 2] [] [script0])).isOk = true ∧ file0 (exTwo [script0]) = .error .ioError := by
  constructor <;> decide +kernel

theorem exScript_ok : (exTwo [script0]).OK := Args.OK.flat rfl (by decide +kernel) (by intro f hf; cases hf)
  (by intro f hf; simp only [exTwo, args0, List.mem_cons, List.not_mem_nil, or_false] at hf
      subst hf; constructor <;> simp [script0, exTwo, args0])
  (by intro f hf; cases hf)
  (by intro f hf; simp only [exTwo, args0, List.mem_cons, List.not_mem_nil, or_false] at hf
      subst hf; simp [script0, exTwo, args0]) (by decide +kernel)

/-- the hypotheses of `C89_scripts` hold of this task, wherever the levels are stored -/
example (place : List Val → String) (f0 : File Val) : ∃ (T : Task.Task Nat) (er : Err), Task.init E0 (exTwo [script0]) = .ok T ∧
    regFile (kind0 E0 (exTwo [script0])) place E0 N0 0 (fun _ _ _ => src0) f0 T = .error er := by
  obtain ⟨T, outs, h1, h2, h3⟩ := levels0_ok (show levels0 (exTwo [script0]) = .ok [([.int 0], [[(0, 1, 2)], [], []]), ([.int 1], [[(0, 1, 2)], [], []])] by decide +kernel)
  have hne : ∀ L ∈ T.levels, outs L ≠ [] := by
    intro L hL hnil
    have := (h3 L hL).2
    rw [hnil] at this
    simp at this
  have key : ∀ k ∈ T.levels.map (fun L => L.key), ∃ L ∈ T.levels, L.key = k := fun k hk => by
    obtain ⟨L, hL, rfl⟩ := List.mem_map.mp hk; exact ⟨L, hL, rfl⟩
  rw [h2] at key
  obtain ⟨L, hL, hk⟩ := key [.int 0] (by simp)
  obtain ⟨L', hL', hk'⟩ := key [.int 1] (by simp)
  have hcol : ∀ f' ∈ allRegs E0 (exTwo [script0]), ∀ name index, kind0 E0 (exTwo [script0]) f' = .column name index → name ∈ ["on_1", "on_2", "ac_1", "ac_2"] := by
    intro f' hf' name index hkf
    simp only [allRegs, exTwo, args0, defaultRegs, E0, id, List.flatMap_cons, List.flatMap_nil, List.append_nil, List.cons_append, List.nil_append, List.mem_cons, List.not_mem_nil, or_false] at hf'
    rcases hf' with rfl | rfl | rfl | rfl | rfl
    · cases hkf
    all_goals
      obtain ⟨rfl, -⟩ := Kind.column.inj hkf
      decide
  obtain ⟨er, he⟩ := C89_scripts E0_lawful exScript_ok h1 (N := N0) (threshold := 0) (src := fun _ _ _ => src0) (kind := kind0 E0 (exTwo [script0])) (f := script0) (n := 0) (by simp [exTwo, args0]) rfl
    (by
      intro f' hf' name index hkf i hi
      have := hcol f' hf' name index hkf
      rw [hi] at this
      have hh : ("reg_" ++ toString i).toList.head? = some 'r' := by simp
      simp only [List.mem_cons, List.not_mem_nil, or_false] at this
      rcases this with h | h | h | h <;> rw [h] at hh <;> revert hh <;> decide)
    hL hL' (by rintro rfl; rw [hk] at hk'; cases hk') (h3 L hL).1 (h3 L' hL').1 (hne L hL) (hne L' hL') place f0
  exact ⟨T, er, h1, he⟩

#print axioms C89_file_partial
#print axioms C89_ascii
#print axioms C89_scripts

end ABX.RegInfo

#print axioms ABX.RegInfo.C89_file_partial
#print axioms ABX.RegInfo.C89_ascii
#print axioms ABX.RegInfo.C89_scripts
