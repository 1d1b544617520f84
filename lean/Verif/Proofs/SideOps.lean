import Verif.Model.SideOps
import Verif.Spec.Filter
import Verif.Proofs.ExtSort
import Mathlib.Tactic.ByContra
import Mathlib.Tactic.Push
import Mathlib.Data.List.Forall2
import Mathlib.Tactic.Tauto
import Mathlib.Tactic.SplitIfs
/-! Lemmas about the classification of side operations and lazy filtering. -/
namespace ABX.SideOps
open ExtSort

/-- what is known of an operation accepted by `place` -/
structure PlaceOK (g : Bool) (c : Cols) (f : DBFun β) (p : Placed β) : Prop where
  op : p.op = f
  byV : ∀ v ∈ p.byVars, v.1 ∈ c.by_
  genV : ∀ v ∈ p.genericVars, v.1 ∉ c.by_ ∧ v.2 = .none
  onV : ∀ v ∈ p.onVars, v.1 ∉ c.by_ ∧ condition c v = false ∧ v.1 ∈ c.on
  acV : ∀ v ∈ p.acrossVars, v.1 ∉ c.by_ ∧ condition c v = false ∧ v.1 ∈ c.across
  aV : ∀ v ∈ p.aVars, v.1 ∉ c.by_ ∧ condition c v = true ∧ getExt c v = .A
  bV : ∀ v ∈ p.bVars, v.1 ∉ c.by_ ∧ condition c v = true ∧ getExt c v = .B
  xV : ∀ v ∈ p.xVars, v.1 ∉ c.by_ ∧ condition c v = true ∧ getExt c v = .X
  hby : p.stage ≠ .generic → ∀ v ∈ f.inputs, v.1 ∈ c.by_ → v ∈ p.byVars
  hby' : p.stage = .by → ∀ v ∈ f.inputs, v.1 ∈ c.by_
  hgen : p.stage = .generic → ∀ v ∈ f.inputs, v.1 ∉ c.by_ → v ∈ p.genericVars
  hgen' : p.stage = .generic → g = true
  hnone : p.stage ≠ .by → p.stage ≠ .generic → ∀ v ∈ f.inputs, v.1 ∉ c.by_ → v.2 ≠ .none
  hon : p.stage ≠ .by → p.stage ≠ .generic → ∀ v ∈ f.inputs, v.1 ∉ c.by_ → condition c v = false → v.1 ∈ c.on → v ∈ p.onVars
  hac : p.stage ≠ .by → p.stage ≠ .generic → ∀ v ∈ f.inputs, v.1 ∉ c.by_ → condition c v = false → v.1 ∈ c.across → v ∈ p.acrossVars
  hoab : p.stage = .onAcrossBy → ∀ v ∈ f.inputs, v.1 ∉ c.by_ → condition c v = false
  hA : p.stage = .A → ∀ v ∈ f.inputs, v.1 ∉ c.by_ → condition c v = true → v ∈ p.aVars
  hB : p.stage = .B → ∀ v ∈ f.inputs, v.1 ∉ c.by_ → condition c v = true → v ∈ p.bVars
  hX : p.stage = .X → ∀ v ∈ f.inputs, v.1 ∉ c.by_ → condition c v = true → v ∈ p.xVars
  hABX : p.stage = .ABX → ∀ v ∈ f.inputs, v.1 ∉ c.by_ → condition c v = true → v ∈ p.aVars ∨ v ∈ p.bVars ∨ v ∈ p.xVars
  hne : p.stage ≠ .by → ∃ v ∈ f.inputs, v.1 ∉ c.by_
  hne2 : p.stage ≠ .by → p.stage ≠ .generic → p.stage ≠ .onAcrossBy → ∃ v ∈ f.inputs, v.1 ∉ c.by_ ∧ condition c v = true
  hABXmix : p.stage = .ABX → ∀ v, f.inputs ≠ [v]
  hax : ∀ v ∈ f.inputs, v.2 = .AX → v.1 ∈ c.across
  h12 : ∀ v ∈ f.inputs, v.2 = .one ∨ v.2 = .two → v.1 ∈ c.on ∨ v.1 ∈ c.across

theorem getExt_cases (c : Cols) (v : Var) (h : condition c v = true) (hn : v.2 ≠ .none) :
    getExt c v = .A ∨ getExt c v = .B ∨ getExt c v = .X := by
  obtain ⟨r, e⟩ := v
  cases e <;> simp_all [condition, getExt]
  by_cases h : r ∈ c.on <;> simp [h]

theorem checkExtensions_ok {c : Cols} {els : List Var} {u} (h : checkExtensions c els = .ok u) :
    (∀ v ∈ els, v.2 = .AX → v.1 ∈ c.across) ∧ (∀ v ∈ els, v.2 = .one ∨ v.2 = .two → v.1 ∈ c.on ∨ v.1 ∈ c.across) := by
  unfold checkExtensions at h
  split at h
  · cases h
  · rename_i h1
    split at h
    · cases h
    · rename_i h2
      constructor
      · intro v hv he
        by_contra hc
        apply h2
        rw [List.any_eq_true]
        exact ⟨v, hv, by simp [he, hc]⟩
      · intro v hv he
        by_contra hc
        apply h1
        rw [List.any_eq_true]
        refine ⟨v, hv, ?_⟩
        push Not at hc
        simp [hc.1, hc.2]
        exact he

theorem place_ok {g : Bool} {c : Cols} {f : DBFun β} {p : Placed β} (h : place g c f = .ok p) : PlaceOK g c f p := by
  unfold place at h
  split at h
  · cases h
  · rename_i u hu
    obtain ⟨hax, h12⟩ := checkExtensions_ok hu
    dsimp only at h
    split at h
    · rename_i hb
      cases h
      rw [List.all_eq_true] at hb
      have hb' : ∀ v ∈ f.inputs, v.1 ∈ c.by_ := by intro v hv; simpa using hb v hv
      constructor <;> first | exact hax | exact h12 | (simp <;> grind)
    · rename_i hb
      have hbe : ∃ v ∈ f.inputs, v.1 ∉ c.by_ := by
        by_contra hc
        push Not at hc
        apply hb
        rw [List.all_eq_true]
        intro v hv; simp [hc v hv]
      split at h
      · rename_i hg
        split at h
        · cases h
          rw [List.all_eq_true] at hg
          have hg' : ∀ v ∈ f.inputs, v.1 ∉ c.by_ → v.2 = .none := by
            intro v hv hb; simpa using hg v (by simp [hv, hb])
          constructor <;> first | exact hax | exact h12 | (simp <;> grind)
        · cases h
      · rename_i hg
        split at h
        · cases h
        · rename_i hn
          have hn' : ∀ v ∈ f.inputs, v.1 ∉ c.by_ → v.2 ≠ .none := by
            intro v hv hvb he
            apply hn
            rw [List.any_eq_true]
            exact ⟨v, by simp [hv, hvb], by simp [he]⟩
          split at h
          · rename_i he
            have he' : ∀ v ∈ f.inputs, v.1 ∉ c.by_ → condition c v = false := by
              intro v hv hvb
              rw [List.isEmpty_iff, List.filter_eq_nil_iff] at he
              have := he v (by simp [hv, hvb])
              simpa using this
            cases h
            constructor <;> first | exact hax | exact h12 | (simp <;> grind)
          · rename_i he
            have key : ∀ e, (((f.inputs.filter (fun v => !c.by_.contains v.1)).filter (condition c)).all (fun v => getExt c v == e)) = true →
                ∀ v ∈ f.inputs, v.1 ∉ c.by_ → condition c v = true → getExt c v = e := by
              intro e hall v hv hvb hvc
              rw [List.all_eq_true] at hall
              have := hall v (by simp [hv, hvb, hvc])
              simpa using this
            cases h
            constructor
            · rfl
            · intro v hv; simp at hv; exact hv.2
            · intro v hv; simp at hv
            · intro v hv; simp at hv; tauto
            · intro v hv; simp at hv; tauto
            · intro v hv; simp at hv; tauto
            · intro v hv; simp at hv; tauto
            · intro v hv; simp at hv; tauto
            · intro _ v hv hvb; simp [hv, hvb]
            · dsimp only; intro hs; split_ifs at hs
            · dsimp only; intro hs; split_ifs at hs
            · dsimp only; intro hs; split_ifs at hs
            · intro _ _ v hv hvb; exact hn' v hv hvb
            · intro _ _ v hv hvb hvc hvo; simp [hv, hvb, hvc, hvo]
            · intro _ _ v hv hvb hvc hvo; simp [hv, hvb, hvc, hvo]
            · dsimp only; intro hs; split_ifs at hs
            · dsimp only; intro hs v hv hvb hvc
              split_ifs at hs with h1
              simp [hv, hvb, hvc, key _ h1 v hv hvb hvc]
            · dsimp only; intro hs v hv hvb hvc
              split_ifs at hs with h1 h2
              simp [hv, hvb, hvc, key _ h2 v hv hvb hvc]
            · dsimp only; intro hs v hv hvb hvc
              split_ifs at hs with h1 h2 h3
              simp [hv, hvb, hvc, key _ h3 v hv hvb hvc]
            · dsimp only; intro hs v hv hvb hvc
              simp [hv, hvb, hvc, getExt_cases c v hvc (hn' v hv hvb)]
            · intro _; exact hbe
            · intro _ _ _
              rw [List.isEmpty_iff, List.filter_eq_nil_iff] at he
              push Not at he
              obtain ⟨v, hv, hvc⟩ := he
              simp at hv
              exact ⟨v, hv.1, hv.2, hvc⟩
            · dsimp only
              intro hs v hv
              split_ifs at hs with h1 h2 h3
              rw [List.isEmpty_iff, List.filter_eq_nil_iff] at he
              push Not at he
              obtain ⟨w, hw, hwc⟩ := he
              simp [hv] at hw
              obtain ⟨rfl, hwb⟩ := hw
              rw [hv] at h1 h2 h3
              simp [hwb, hwc] at h1 h2 h3
              have := getExt_cases c w hwc (hn' w (by simp [hv]) hwb)
              tauto
            · exact hax
            · exact h12


/-! ### contexts -/

theorem get_some {ctx : Ctx} {v : Var} {l : List Val} (hb : v ∈ ctx.map (·.1)) (h : ∀ p ∈ ctx, p.1 = v → p.2 = l) :
    ctx.get v = some l := by
  unfold Ctx.get
  cases hf : ctx.find? (fun p => p.1 == v) with
  | none =>
    rw [List.find?_eq_none] at hf
    obtain ⟨p, hp, hv⟩ := List.mem_map.mp hb
    exact absurd (by simp [hv]) (hf p hp)
  | some p =>
    have h1 := List.mem_of_find?_eq_some hf
    have h2 := List.find?_some hf
    simp at h2
    simp [h p h1 h2]

theorem lenOf_ok {ctx : Ctx} {n : Nat} : ∀ {vs : List Var}, vs ≠ [] → (∀ v ∈ vs, ∃ l, ctx.get v = some l ∧ l.length = n) → lenOf ctx vs = .ok n
  | [], h, _ => absurd rfl h
  | [v], _, h => by
    obtain ⟨l, hl, hn⟩ := h v (by simp)
    simp [lenOf, hl, hn]
  | v :: w :: vs, _, h => by
    obtain ⟨l, hl, hn⟩ := h v (by simp)
    have ih := lenOf_ok (ctx := ctx) (n := n) (vs := w :: vs) (by simp) (fun u hu => h u (by simp at hu ⊢; tauto))
    rw [lenOf]
    · simp [hl, ih, hn]
    · simp

/-- a context that represents a list of environments -/
def Rep (ctx : Ctx) (es : List (Var → Val)) : Prop := ∀ p ∈ ctx, p.2 = es.map (fun e => e p.1)

theorem Rep.get {ctx : Ctx} {es : List (Var → Val)} (h : Rep ctx es) {v : Var} (hv : v ∈ ctx.map (·.1)) :
    ctx.get v = some (es.map (fun e => e v)) :=
  get_some hv (fun p hp hpv => by rw [h p hp, hpv])

theorem evaluate_ok {f : DBFun β} {ctx : Ctx} {es : List (Var → Val)} (h : Rep ctx es) (hne : f.inputs ≠ [])
    (hb : ∀ v ∈ f.inputs, v ∈ ctx.map (·.1)) : evaluate f ctx = .ok (es.map f.fn) := by
  unfold evaluate
  rw [lenOf_ok (n := es.length) hne (fun v hv => ⟨_, h.get (hb v hv), by simp⟩)]
  simp only [Except.ok.injEq]
  apply List.ext_getElem
  · simp
  · intro i h1 h2
    simp only [List.getElem_map, List.getElem_range]
    apply f.ext
    intro v hv
    simp at h2
    simp [Ctx.env, h.get (hb v hv), h2]

theorem evaluate_single {f : DBFun β} {ctx : Ctx} {e : Var → Val} (h : Rep ctx [e])
    (hb : ∀ v ∈ f.inputs, v ∈ ctx.map (·.1)) : evaluate f ctx = .ok [f.fn e] := by
  by_cases hne : f.inputs = []
  · simp only [evaluate, hne, lenOf, List.range_one, List.map_cons, List.map_nil]
    congr 2
    apply f.ext
    simp [hne]
  · exact evaluate_ok h hne hb

theorem singletonFilter_ok {ctx : Ctx} {e : Var → Val} (h : Rep ctx [e]) : ∀ (fs : List (DBFun Bool)),
    (∀ f ∈ fs, ∀ v ∈ f.inputs, v ∈ ctx.map (·.1)) → singletonFilter ctx fs = .ok (fs.all (fun f => f.fn e))
  | [], _ => rfl
  | f :: fs, hb => by
    rw [singletonFilter, evaluate_single h (hb f (by simp))]
    have ih := singletonFilter_ok h fs (fun g hg => hb g (by simp [hg]))
    cases hf : f.fn e <;> simp [hf, ih]

theorem gather_succ (x : α) (l : List α) : ∀ is : List Nat, gather (x :: l) (is.map (· + 1)) = gather l is
  | [] => rfl
  | i :: is => by simp [gather, gather_succ x l is]

theorem whereTrue_cons (b : Bool) (r : List Bool) :
    whereTrue (b :: r) = (if b then [0] else []) ++ (whereTrue r).map (· + 1) := by
  simp only [whereTrue, List.length_cons, List.range_succ_eq_map, List.filter_cons, List.getElem?_cons_zero, List.filter_map]
  have : ((fun i => (b :: r)[i]? == some true) ∘ Nat.succ) = (fun i => r[i]? == some true) := by
    funext i; simp
  rw [this]
  cases b <;> simp

theorem gather_where (zs : List γ) (P : γ → Bool) (g : γ → α) :
    gather (zs.map g) (whereTrue (zs.map P)) = .ok ((zs.filter P).map g) := by
  induction zs with
  | nil => rfl
  | cons z zs ih =>
    simp only [List.map_cons, whereTrue_cons]
    cases hz : P z
    · simp only [Bool.false_eq_true, if_false, List.nil_append, gather_succ, ih]
      simp [hz]
    · simp only [if_true, List.singleton_append]
      simp [gather, gather_succ, ih, hz]

theorem keep_ok {ctx : Ctx} {zs : List γ} (env : γ → Var → Val) (P : γ → Bool) (h : Rep ctx (zs.map env)) :
    ∃ ctx', Ctx.keep (whereTrue (zs.map P)) ctx = .ok ctx' ∧ Rep ctx' ((zs.filter P).map env) ∧ ctx'.map (·.1) = ctx.map (·.1) := by
  induction ctx with
  | nil => exact ⟨[], rfl, by simp [Rep], rfl⟩
  | cons p ctx ih =>
    obtain ⟨v, l⟩ := p
    have hl : l = (zs.map (fun z => env z v)) := by
      have := h (v, l) (by simp)
      simpa [List.map_map, Function.comp_def] using this
    obtain ⟨ctx', h1, h2, h3⟩ := ih (fun q hq => h q (by simp [hq]))
    refine ⟨(v, (zs.filter P).map (fun z => env z v)) :: ctx', ?_, ?_, by simp [h3]⟩
    · rw [Ctx.keep, hl, gather_where]
      simp [h1]
    · intro q hq
      rcases List.mem_cons.mp hq with rfl | hq
      · simp [List.map_map, Function.comp_def]
      · exact h2 q hq

/-- lazy filtering keeps exactly the positions on which every filter holds -/
theorem vectorialFilter_ok (env : γ → Var → Val) (key : γ → Nat) : ∀ (fs : List (DBFun Bool)) (ctx : Ctx) (zs : List γ),
    Rep ctx (zs.map env) → (∀ f ∈ fs, f.inputs ≠ [] ∧ ∀ v ∈ f.inputs, v ∈ ctx.map (·.1)) →
    vectorialFilter fs ctx (zs.map key) = .ok ((zs.filter (fun z => fs.all (fun f => f.fn (env z)))).map key)
  | [], ctx, zs, _, _ => by
    rw [List.filter_eq_self.mpr (by simp)]; rfl
  | f :: fs, ctx, zs, h, hb => by
    have he := evaluate_ok h (hb f (by simp)).1 (hb f (by simp)).2
    rw [List.map_map] at he
    obtain ⟨ctx', h1, h2, h3⟩ := keep_ok env (f.fn ∘ env) h
    rw [vectorialFilter, he]
    simp only [gather_where, h1]
    have key : ((zs.filter (fun z => (f :: fs).all (fun f => f.fn (env z))))) =
        ((zs.filter (f.fn ∘ env)).filter (fun z => fs.all (fun f => f.fn (env z)))) := by
      rw [List.filter_filter]
      congr 1
      funext z
      simp [Bool.and_comm]
    rw [key]
    split
    · rename_i hem
      simp at hem
      rw [show zs.filter (f.fn ∘ env) = [] from by simpa [List.filter_eq_nil_iff] using hem]
      rfl
    · exact vectorialFilter_ok env _ fs ctx' _ h2 (fun g hg => by rw [h3]; exact hb g (by simp [hg]))


/-! ### the stages -/

/-- every operation was accepted by `place` -/
def MgrOK (g : Bool) (c : Cols) (m : Mgr β) : Prop := ∀ p ∈ m, PlaceOK g c p.op p

/-- the variables of the operation are among those the manager can provide -/
def Avail (c : Cols) (f : DBFun β) : Prop :=
  (∀ v ∈ f.inputs, v.2 = .AB → v.1 ∈ c.on ∨ v.1 ∈ c.across ∨ v.1 ∈ c.by_) ∧
  ((∃ v ∈ f.inputs, v.1 ∉ c.by_ ∧ v.2 = .none) → ∀ v ∈ f.inputs, v.1 ∉ c.by_)

theorem sequence_mem {l : List (Except Err α)} {ys : List α} (h : sequence l = .ok ys) : ∀ y ∈ ys, .ok y ∈ l := by
  induction l generalizing ys with
  | nil => simp [sequence] at h; subst h; simp
  | cons x l ih =>
    cases x with
    | error e => simp [sequence] at h
    | ok x =>
      simp only [sequence] at h
      split at h
      · cases h
      · cases h
        rename_i ys hys
        intro y hy
        rcases List.mem_cons.mp hy with rfl | hy
        · simp
        · exact List.mem_cons_of_mem _ (ih hys y hy)

theorem sequence_inv {f : α → Except Err β} {l : List α} {ys : List β} (h : sequence (l.map f) = .ok ys) :
    List.Forall₂ (fun x y => f x = .ok y) l ys := by
  induction l generalizing ys with
  | nil => simp [sequence] at h; subst h; exact .nil
  | cons x l ih =>
    simp only [List.map_cons] at h
    cases hx : f x with
    | error e => simp [sequence, hx] at h
    | ok y =>
      simp only [hx, sequence] at h
      split at h
      · cases h
      · cases h
        rename_i ys hys
        exact .cons hx (ih hys)

theorem mgr_forall₂ {g : Bool} {c : Cols} {fs : List (DBFun β)} {m : Mgr β} (h : mgr g c fs = .ok m) :
    List.Forall₂ (fun f p => place g c f = .ok p) fs m := sequence_inv h

theorem mgr_ok {g : Bool} {c : Cols} {fs : List (DBFun β)} {m : Mgr β} (h : mgr g c fs = .ok m) : MgrOK g c m := by
  intro p hp
  have := sequence_mem h p hp
  obtain ⟨f, _, hf⟩ := List.mem_map.mp this
  have := place_ok hf
  have hop := this.op
  rwa [← hop] at this

theorem mgr_ops {g : Bool} {c : Cols} {fs : List (DBFun β)} {m : Mgr β} (h : mgr g c fs = .ok m) : m.map Placed.op = fs := by
  have h' := mgr_forall₂ h
  clear h
  induction h' with
  | nil => rfl
  | cons h _ ih => simp [(place_ok h).op, ih]

theorem mem_ops {m : Mgr β} {s : Stage} {f : DBFun β} : f ∈ m.ops s ↔ ∃ p ∈ m, p.stage = s ∧ p.op = f := by
  simp [Mgr.ops, Mgr.at, and_assoc]

/-- the environment in which operations are evaluated: columns determined by by / on / across from the block's row,
the others from the items -/
def stageEnv (c : Cols) (row a b x : Row) : Var → Val := fun v =>
  if v.1 ∈ c.by_ ∨ condition c v = false then row v.1
  else if getExt c v = .A then a v.1 else if getExt c v = .B then b v.1 else x v.1

theorem rep_append {c1 c2 : Ctx} {es : List (Var → Val)} (h1 : Rep c1 es) (h2 : Rep c2 es) : Rep (c1 ++ c2) es := by
  intro p hp
  rcases List.mem_append.mp hp with h | h
  · exact h1 p h
  · exact h2 p h

theorem rep_const {vs : List Var} {row : Row} {es : List (Var → Val)} {n : Nat} (hn : es.length = n) (h : ∀ v ∈ vs, ∀ e ∈ es, e v = row v.1) :
    Rep (bindConst vs row n) es := by
  intro p hp
  obtain ⟨v, hv, rfl⟩ := List.mem_map.mp hp
  symm
  apply List.eq_replicate_iff.mpr
  refine ⟨by simp [hn], ?_⟩
  intro y hy
  obtain ⟨e, he, rfl⟩ := List.mem_map.mp hy
  exact h v hv e he

theorem rep_rows {vs : List Var} {rows : γ → Row} {zs : List γ} {env : γ → Var → Val}
    (h : ∀ v ∈ vs, ∀ z ∈ zs, env z v = rows z v.1) :
    Rep (bindRows vs (zs.map rows)) (zs.map env) := by
  intro p hp
  obtain ⟨v, hv, rfl⟩ := List.mem_map.mp hp
  simp only [List.map_map]
  apply List.map_congr_left
  intro z hz
  exact (h v hv z hz).symm

theorem bindRows_fst (vs : List Var) (rows : List Row) : (bindRows vs rows).map (·.1) = vs := by
  simp [bindRows, Function.comp_def]

theorem bindConst_fst (vs : List Var) (row : Row) (n : Nat) : (bindConst vs row n).map (·.1) = vs := by
  simp [bindConst, Function.comp_def]

section
variable {g : Bool} {c : Cols} {m : Mgr β} (hm : MgrOK g c m)
include hm

theorem byCtx_spec {s : Stage} {v : Var} (h : v ∈ m.byCtx s) : v.1 ∈ c.by_ := by
  simp only [Mgr.byCtx, Mgr.at, List.mem_flatMap, List.mem_filter] at h
  obtain ⟨p, ⟨hp, _⟩, hv⟩ := h
  exact (hm p hp).byV v hv

theorem onCtx_spec {s : Stage} {v : Var} (h : v ∈ m.onCtx s) : v.1 ∉ c.by_ ∧ condition c v = false := by
  simp only [Mgr.onCtx, Mgr.at, List.mem_flatMap, List.mem_filter] at h
  obtain ⟨p, ⟨hp, _⟩, hv⟩ := h
  exact ⟨((hm p hp).onV v hv).1, ((hm p hp).onV v hv).2.1⟩

theorem acrossCtx_spec {s : Stage} {v : Var} (h : v ∈ m.acrossCtx s) : v.1 ∉ c.by_ ∧ condition c v = false := by
  simp only [Mgr.acrossCtx, Mgr.at, List.mem_flatMap, List.mem_filter] at h
  obtain ⟨p, ⟨hp, _⟩, hv⟩ := h
  exact ⟨((hm p hp).acV v hv).1, ((hm p hp).acV v hv).2.1⟩

theorem aCtx_spec {s : Stage} {v : Var} (h : v ∈ m.aCtx s) : v.1 ∉ c.by_ ∧ condition c v = true ∧ getExt c v = .A := by
  simp only [Mgr.aCtx, Mgr.at, List.mem_flatMap, List.mem_filter] at h
  obtain ⟨p, ⟨hp, _⟩, hv⟩ := h
  exact (hm p hp).aV v hv

theorem bCtx_spec {s : Stage} {v : Var} (h : v ∈ m.bCtx s) : v.1 ∉ c.by_ ∧ condition c v = true ∧ getExt c v = .B := by
  simp only [Mgr.bCtx, Mgr.at, List.mem_flatMap, List.mem_filter] at h
  obtain ⟨p, ⟨hp, _⟩, hv⟩ := h
  exact (hm p hp).bV v hv

theorem xCtx_spec {s : Stage} {v : Var} (h : v ∈ m.xCtx s) : v.1 ∉ c.by_ ∧ condition c v = true ∧ getExt c v = .X := by
  simp only [Mgr.xCtx, Mgr.at, List.mem_flatMap, List.mem_filter] at h
  obtain ⟨p, ⟨hp, _⟩, hv⟩ := h
  exact (hm p hp).xV v hv

theorem genericCtx_spec {s : Stage} {v : Var} (h : v ∈ m.genericCtx s) : v.1 ∉ c.by_ ∧ v.2 = .none := by
  simp only [Mgr.genericCtx, Mgr.at, List.mem_flatMap, List.mem_filter] at h
  obtain ⟨p, ⟨hp, _⟩, hv⟩ := h
  exact (hm p hp).genV v hv

theorem blockCtx_rep {s : Stage} {row : Row} {es : List (Var → Val)} {n : Nat} (hn : es.length = n)
    (h : ∀ e ∈ es, ∃ a b x, e = stageEnv c row a b x) : Rep (m.blockCtx s row n) es := by
  have key : ∀ v : Var, (v.1 ∈ c.by_ ∨ condition c v = false) → ∀ e ∈ es, e v = row v.1 := by
    intro v hv e he
    obtain ⟨a, b, x, rfl⟩ := h e he
    simp [stageEnv, hv]
  unfold Mgr.blockCtx
  refine rep_append (rep_append ?_ ?_) ?_
  · exact rep_const hn (fun v hv => key v (Or.inr (acrossCtx_spec hm hv).2))
  · exact rep_const hn (fun v hv => key v (Or.inr (onCtx_spec hm hv).2))
  · exact rep_const hn (fun v hv => key v (Or.inl (byCtx_spec hm hv)))

omit hm in
theorem blockCtx_fst {s : Stage} {row : Row} {n : Nat} {v : Var} :
    v ∈ (m.blockCtx s row n).map (·.1) ↔ v ∈ m.acrossCtx s ∨ v ∈ m.onCtx s ∨ v ∈ m.byCtx s := by
  simp only [Mgr.blockCtx, List.map_append, bindConst_fst, List.mem_append, or_assoc]

omit hm in
theorem mem_ctx {s : Stage} {p : Placed β} (hp : p ∈ m) (hs : p.stage = s) :
    (∀ v ∈ p.byVars, v ∈ m.byCtx s) ∧ (∀ v ∈ p.onVars, v ∈ m.onCtx s) ∧ (∀ v ∈ p.acrossVars, v ∈ m.acrossCtx s) ∧
    (∀ v ∈ p.aVars, v ∈ m.aCtx s) ∧ (∀ v ∈ p.bVars, v ∈ m.bCtx s) ∧ (∀ v ∈ p.xVars, v ∈ m.xCtx s) ∧
    (∀ v ∈ p.genericVars, v ∈ m.genericCtx s) := by
  have h : p ∈ m.at s := by simp [Mgr.at, hp, hs]
  simp only [Mgr.byCtx, Mgr.onCtx, Mgr.acrossCtx, Mgr.aCtx, Mgr.bCtx, Mgr.xCtx, Mgr.genericCtx, List.mem_flatMap]
  exact ⟨fun v hv => ⟨p, h, hv⟩, fun v hv => ⟨p, h, hv⟩, fun v hv => ⟨p, h, hv⟩, fun v hv => ⟨p, h, hv⟩, fun v hv => ⟨p, h, hv⟩,
    fun v hv => ⟨p, h, hv⟩, fun v hv => ⟨p, h, hv⟩⟩

/-- columns determined by the block are bound -/
theorem block_bound {s : Stage} {p : Placed β} (hp : p ∈ m) (hs : p.stage = s) (hs1 : s ≠ .by) (hs2 : s ≠ .generic)
    (hav : Avail c p.op) {v : Var} (hv : v ∈ p.op.inputs) (hk : v.1 ∈ c.by_ ∨ condition c v = false) :
    v ∈ m.acrossCtx s ∨ v ∈ m.onCtx s ∨ v ∈ m.byCtx s := by
  have P := hm p hp
  obtain ⟨m1, m2, m3, _⟩ := mem_ctx hp hs
  by_cases hby : v.1 ∈ c.by_
  · exact Or.inr (Or.inr (m1 v (P.hby (by rw [hs]; exact hs2) v hv hby)))
  · rcases hk with hk | hk
    · exact absurd hk hby
    · have : v.1 ∈ c.on ∨ v.1 ∈ c.across := by
        obtain ⟨r, e⟩ := v
        cases e <;> simp [condition] at hk
        · exact Or.inl hk
        · exact Or.inl hk
        · rcases hav.1 (r, .AB) hv rfl with h | h | h
          · exact Or.inl h
          · exact Or.inr h
          · exact absurd h hby
        · exact Or.inr (P.hax _ hv rfl)
        · exact P.h12 _ hv (Or.inl rfl)
      rcases this with h | h
      · exact Or.inr (Or.inl (m2 v (P.hon (by rw [hs]; exact hs1) (by rw [hs]; exact hs2) v hv hby hk h)))
      · exact Or.inl (m3 v (P.hac (by rw [hs]; exact hs1) (by rw [hs]; exact hs2) v hv hby hk h))

end


theorem inputs_ne {g : Bool} {c : Cols} {m : Mgr β} (hm : MgrOK g c m) {p : Placed β} (hp : p ∈ m) (hs : p.stage ≠ .by) :
    p.op.inputs ≠ [] := by
  obtain ⟨v, hv, _⟩ := (hm p hp).hne hs
  intro h; rw [h] at hv; simp at hv

section
variable {c : Cols} {m : Mgr Bool} (hm : MgrOK true c m) (hav : ∀ p ∈ m, Avail c p.op)
include hm hav

/-- result of the A, B or X filter: all items on which the filters of the stage hold -/
theorem aFilter_ok (row : Row) (A : List γ) (r : γ → Row) (b x : Row) :
    m.aFilter row (A.map r) = .ok ((A.zipIdx.filter (fun z => (m.ops .A).all (fun f => f.fn (stageEnv c row (r z.1) b x)))).map (·.2)) := by
  unfold Mgr.aFilter
  have h1 : List.range (A.map r).length = A.zipIdx.map (·.2) := by simp [List.zipIdx_map_snd, List.range_eq_range']
  have h2 : A.map r = A.zipIdx.map (fun z => r z.1) := by
    rw [show (fun z : γ × Nat => r z.1) = r ∘ Prod.fst from rfl, ← List.map_map, List.zipIdx_map_fst]
  rw [h1]
  refine vectorialFilter_ok (fun z : γ × Nat => stageEnv c row (r z.1) b x) (·.2) _ _ _ ?_ ?_
  · apply rep_append
    · rw [h2]
      apply rep_rows
      intro v hv z _
      have := aCtx_spec hm hv
      simp [stageEnv, this]
    · apply blockCtx_rep hm (by simp)
      intro e he
      obtain ⟨z, _, rfl⟩ := List.mem_map.mp he
      exact ⟨_, _, _, rfl⟩
  · intro f hf
    obtain ⟨p, hp, hs, rfl⟩ := mem_ops.mp hf
    refine ⟨inputs_ne hm hp (by simp [hs]), ?_⟩
    intro v hv
    rw [List.map_append, List.mem_append, bindRows_fst, blockCtx_fst]
    by_cases hk : v.1 ∈ c.by_ ∨ condition c v = false
    · exact Or.inr (block_bound hm hp hs (by simp) (by simp) (hav p hp) hv hk)
    · push Not at hk
      exact Or.inl ((mem_ctx hp hs).2.2.2.1 v ((hm p hp).hA hs v hv hk.1 (by simpa using hk.2)))

theorem bFilter_ok (row : Row) (A : List γ) (r : γ → Row) (a x : Row) :
    m.bFilter row (A.map r) = .ok ((A.zipIdx.filter (fun z => (m.ops .B).all (fun f => f.fn (stageEnv c row a (r z.1) x)))).map (·.2)) := by
  unfold Mgr.bFilter
  have h1 : List.range (A.map r).length = A.zipIdx.map (·.2) := by simp [List.zipIdx_map_snd, List.range_eq_range']
  have h2 : A.map r = A.zipIdx.map (fun z => r z.1) := by
    rw [show (fun z : γ × Nat => r z.1) = r ∘ Prod.fst from rfl, ← List.map_map, List.zipIdx_map_fst]
  rw [h1]
  refine vectorialFilter_ok (fun z : γ × Nat => stageEnv c row a (r z.1) x) (·.2) _ _ _ ?_ ?_
  · apply rep_append
    · rw [h2]
      apply rep_rows
      intro v hv z _
      have := bCtx_spec hm hv
      simp [stageEnv, this]
    · apply blockCtx_rep hm (by simp)
      intro e he
      obtain ⟨z, _, rfl⟩ := List.mem_map.mp he
      exact ⟨_, _, _, rfl⟩
  · intro f hf
    obtain ⟨p, hp, hs, rfl⟩ := mem_ops.mp hf
    refine ⟨inputs_ne hm hp (by simp [hs]), ?_⟩
    intro v hv
    rw [List.map_append, List.mem_append, bindRows_fst, blockCtx_fst]
    by_cases hk : v.1 ∈ c.by_ ∨ condition c v = false
    · exact Or.inr (block_bound hm hp hs (by simp) (by simp) (hav p hp) hv hk)
    · push Not at hk
      exact Or.inl ((mem_ctx hp hs).2.2.2.2.1 v ((hm p hp).hB hs v hv hk.1 (by simpa using hk.2)))

theorem xFilter_ok (row : Row) (A : List γ) (r : γ → Row) (a b : Row) :
    m.xFilter row (A.map r) = .ok ((A.zipIdx.filter (fun z => (m.ops .X).all (fun f => f.fn (stageEnv c row a b (r z.1))))).map (·.2)) := by
  unfold Mgr.xFilter
  have h1 : List.range (A.map r).length = A.zipIdx.map (·.2) := by simp [List.zipIdx_map_snd, List.range_eq_range']
  have h2 : A.map r = A.zipIdx.map (fun z => r z.1) := by
    rw [show (fun z : γ × Nat => r z.1) = r ∘ Prod.fst from rfl, ← List.map_map, List.zipIdx_map_fst]
  rw [h1]
  refine vectorialFilter_ok (fun z : γ × Nat => stageEnv c row a b (r z.1)) (·.2) _ _ _ ?_ ?_
  · apply rep_append
    · rw [h2]
      apply rep_rows
      intro v hv z _
      have := xCtx_spec hm hv
      simp [stageEnv, this]
    · apply blockCtx_rep hm (by simp)
      intro e he
      obtain ⟨z, _, rfl⟩ := List.mem_map.mp he
      exact ⟨_, _, _, rfl⟩
  · intro f hf
    obtain ⟨p, hp, hs, rfl⟩ := mem_ops.mp hf
    refine ⟨inputs_ne hm hp (by simp [hs]), ?_⟩
    intro v hv
    rw [List.map_append, List.mem_append, bindRows_fst, blockCtx_fst]
    by_cases hk : v.1 ∈ c.by_ ∨ condition c v = false
    · exact Or.inr (block_bound hm hp hs (by simp) (by simp) (hav p hp) hv hk)
    · push Not at hk
      exact Or.inl ((mem_ctx hp hs).2.2.2.2.2.1 v ((hm p hp).hX hs v hv hk.1 (by simpa using hk.2)))

theorem abxFilter_ok (row : Row) (T : List γ) (ra rb rx : γ → Row) :
    m.abxFilter row (T.map (fun t => (ra t, rb t, rx t))) =
      .ok ((T.zipIdx.filter (fun z => (m.ops .ABX).all (fun f => f.fn (stageEnv c row (ra z.1) (rb z.1) (rx z.1))))).map (·.2)) := by
  unfold Mgr.abxFilter
  have h1 : List.range (T.map (fun t => (ra t, rb t, rx t))).length = T.zipIdx.map (·.2) := by
    simp [List.zipIdx_map_snd, List.range_eq_range']
  have h2 : ∀ {δ : Type} (f : γ → δ), T.map f = T.zipIdx.map (fun z => f z.1) := by
    intro δ f
    rw [show (fun z : γ × Nat => f z.1) = f ∘ Prod.fst from rfl, ← List.map_map, List.zipIdx_map_fst]
  rw [h1]
  simp only [List.map_map]
  refine vectorialFilter_ok (fun z : γ × Nat => stageEnv c row (ra z.1) (rb z.1) (rx z.1)) (·.2) _ _ _ ?_ ?_
  · refine rep_append (rep_append (rep_append ?_ ?_) ?_) ?_
    · rw [h2]
      apply rep_rows
      intro v hv z _
      have := xCtx_spec hm hv
      simp [stageEnv, this]
    · rw [h2]
      apply rep_rows
      intro v hv z _
      have := bCtx_spec hm hv
      simp [stageEnv, this]
    · rw [h2]
      apply rep_rows
      intro v hv z _
      have := aCtx_spec hm hv
      simp [stageEnv, this]
    · apply blockCtx_rep hm (by simp)
      intro e he
      obtain ⟨z, _, rfl⟩ := List.mem_map.mp he
      exact ⟨_, _, _, rfl⟩
  · intro f hf
    obtain ⟨p, hp, hs, rfl⟩ := mem_ops.mp hf
    refine ⟨inputs_ne hm hp (by simp [hs]), ?_⟩
    intro v hv
    simp only [List.map_append, List.mem_append, bindRows_fst, blockCtx_fst]
    by_cases hk : v.1 ∈ c.by_ ∨ condition c v = false
    · exact Or.inr (block_bound hm hp hs (by simp) (by simp) (hav p hp) hv hk)
    · push Not at hk
      obtain ⟨_, _, _, ma, mb, mx, _⟩ := mem_ctx hp hs
      rcases (hm p hp).hABX hs v hv hk.1 (by simpa using hk.2) with h | h | h
      · exact Or.inl (Or.inr (ma v h))
      · exact Or.inl (Or.inl (Or.inr (mb v h)))
      · exact Or.inl (Or.inl (Or.inl (mx v h)))

theorem onAcrossByFilter_ok (row a b x : Row) :
    m.onAcrossByFilter row = .ok ((m.ops .onAcrossBy).all (fun f => f.fn (stageEnv c row a b x))) := by
  unfold Mgr.onAcrossByFilter
  apply singletonFilter_ok
  · exact blockCtx_rep (s := .onAcrossBy) hm (es := [stageEnv c row a b x]) (n := 1) (by simp) (by
      intro e he; simp at he; exact ⟨_, _, _, he⟩)
  · intro f hf v hv
    obtain ⟨p, hp, hs, rfl⟩ := mem_ops.mp hf
    have := (blockCtx_fst (m := m) (s := .onAcrossBy) (row := row) (n := 1) (v := v))
    unfold Mgr.blockCtx at this
    rw [this]
    apply block_bound hm hp hs (by simp) (by simp) (hav p hp) hv
    by_cases hby : v.1 ∈ c.by_
    · exact Or.inl hby
    · exact Or.inr ((hm p hp).hoab hs v hv hby)

omit hav in
theorem byFilter_ok (row : Row) : m.byFilter row = .ok ((m.ops .by).all (fun f => f.fn (fun v => row v.1))) := by
  unfold Mgr.byFilter
  apply singletonFilter_ok
  · exact rep_const (by simp) (by intro v _ e he; simp at he; subst he; rfl)
  · intro f hf v hv
    obtain ⟨p, hp, hs, rfl⟩ := mem_ops.mp hf
    rw [bindConst_fst]
    exact (mem_ctx hp hs).1 v ((hm p hp).hby (by simp [hs]) v hv ((hm p hp).hby' hs v hv))

theorem genericFilter_ok (byRow : Row) (A : List γ) (r : γ → Row) :
    m.genericFilter byRow (A.map r) =
      .ok ((A.zipIdx.filter (fun z => (m.ops .generic).all (fun f => f.fn (fun v => r z.1 v.1)))).map (·.2)) := by
  unfold Mgr.genericFilter
  have h1 : List.range (A.map r).length = A.zipIdx.map (·.2) := by simp [List.zipIdx_map_snd, List.range_eq_range']
  have h2 : A.map r = A.zipIdx.map (fun z => r z.1) := by
    rw [show (fun z : γ × Nat => r z.1) = r ∘ Prod.fst from rfl, ← List.map_map, List.zipIdx_map_fst]
  have h3 : m.byCtx .generic = [] ∨ True := Or.inr trivial
  rw [h1]
  refine vectorialFilter_ok (fun z : γ × Nat => fun v => if v.1 ∈ c.by_ then byRow v.1 else r z.1 v.1) (·.2) _ _ _ ?_ ?_ |>.trans ?_
  · apply rep_append
    · rw [h2]
      apply rep_rows
      intro v hv z _
      have := genericCtx_spec hm hv
      simp [this]
    · apply rep_const (by simp)
      intro v hv e he
      obtain ⟨z, _, rfl⟩ := List.mem_map.mp he
      simp [byCtx_spec hm hv]
  · intro f hf
    obtain ⟨p, hp, hs, rfl⟩ := mem_ops.mp hf
    refine ⟨inputs_ne hm hp (by simp [hs]), ?_⟩
    intro v hv
    rw [List.map_append, List.mem_append, bindRows_fst]
    left
    obtain ⟨w, hw, hwb⟩ := (hm p hp).hne (by simp [hs])
    have hw2 := (hm p hp).genV w ((hm p hp).hgen hs w hw hwb)
    exact (mem_ctx hp hs).2.2.2.2.2.2 v ((hm p hp).hgen hs v hv ((hav p hp).2 ⟨w, hw, hw2⟩ v hv))
  · congr 2
    apply List.filter_congr
    intro z _
    rw [Bool.eq_iff_iff, List.all_eq_true, List.all_eq_true]
    apply forall₂_congr
    intro f hf
    obtain ⟨p, hp, hs, rfl⟩ := mem_ops.mp hf
    obtain ⟨w, hw, hwb⟩ := (hm p hp).hne (by simp [hs])
    have hw2 := (hm p hp).genV w ((hm p hp).hgen hs w hw hwb)
    rw [p.op.ext _ (fun v => r z.1 v.1)]
    intro v hv
    simp [(hav p hp).2 ⟨w, hw, hw2⟩ v hv]

end

/-- the stage environment is the meaning of the extended columns, when the block's row shares the values determined by
by, on and across with the items -/
theorem stageEnv_sem {g : Bool} {c : Cols} {f : DBFun β} {p : Placed β} (P : PlaceOK g c f p) (hs1 : p.stage ≠ .by) (hs2 : p.stage ≠ .generic)
    (hav : Avail c f) {row a b x : Row}
    (hby : ∀ r ∈ c.by_, row r = a r ∧ row r = b r ∧ row r = x r)
    (hon : ∀ r ∈ c.on, row r = a r ∧ row r = x r)
    (hac : ∀ r ∈ c.across, row r = a r) :
    ∀ v ∈ f.inputs, stageEnv c row a b x v = Spec.sem c a b x v := by
  intro v hv
  unfold stageEnv
  by_cases hb : v.1 ∈ c.by_
  · rw [if_pos (Or.inl hb)]
    obtain ⟨h1, h2, h3⟩ := hby v.1 hb
    obtain ⟨r, e⟩ := v
    cases e <;> simp [Spec.sem] at * <;> try assumption
    split <;> assumption
  · have hn := P.hnone hs1 hs2 v hv hb
    by_cases hk : condition c v = false
    · rw [if_pos (Or.inr hk)]
      have hax := P.hax v hv
      have h12 := P.h12 v hv
      have hab := hav.1 v hv
      obtain ⟨r, e⟩ := v
      cases e <;> simp [condition] at hk
      · exact (hon r hk).1
      · exact (hon r hk).2
      · rcases hab rfl with h | h | h
        · exact (hon r h).1
        · exact hac r h
        · exact absurd h hb
      · exact hac r (hax rfl)
      · rcases h12 (Or.inl rfl) with h | h
        · exact (hon r h).1
        · exact hac r h
    · rw [if_neg (by tauto)]
      obtain ⟨r, e⟩ := v
      cases e <;> simp [condition] at hk
      · exact absurd rfl hn
      · simp [getExt, Spec.sem]
      · simp [getExt, Spec.sem]
      · simp [getExt, Spec.sem]
      · by_cases ho : r ∈ c.on <;> simp [getExt, Spec.sem, ho]

end ABX.SideOps
