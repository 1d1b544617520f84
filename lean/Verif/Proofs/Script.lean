import Verif.Spec.Script
/-! Lemmas for scripts. -/
namespace ABX.Script
open ExtSort Spec
variable {V : Type}

theorem seq_iff {α β : Type} (f : α → Except Err β) : ∀ (l : List α) (m : List β), sequence (l.map f) = .ok m ↔
    ∃ hl : m.length = l.length, ∀ i (h : i < l.length), f l[i] = .ok (m[i]'(hl ▸ h))
  | [], m => by
    simp only [List.map_nil, sequence]
    constructor
    · intro h; cases h; exact ⟨rfl, fun i hi => absurd hi (Nat.not_lt_zero i)⟩
    · rintro ⟨hl, -⟩
      rw [List.length_eq_zero_iff.mp hl]
  | a :: l, m => by
    have ih := seq_iff f l
    rw [List.map_cons]
    cases hf : f a with
    | error e =>
      simp only [sequence]
      constructor
      · intro h; cases h
      · rintro ⟨hl, h⟩
        have := h 0 (Nat.zero_lt_succ _)
        rw [List.getElem_cons_zero, hf] at this; cases this
    | ok b =>
      simp only [sequence]
      cases hs : sequence (l.map f) with
      | error e =>
        simp only [reduceCtorEq, false_iff]
        rintro ⟨hl, h⟩
        cases m with
        | nil => simp at hl
        | cons c m =>
          have hl' : m.length = l.length := by simpa using hl
          have := (ih m).mpr ⟨hl', fun i hi => by
            have := h (i + 1) (Nat.succ_lt_succ hi)
            simpa using this⟩
          rw [hs] at this; cases this
      | ok n =>
        constructor
        · intro h
          cases h
          obtain ⟨hl, hn⟩ := (ih n).mp hs
          refine ⟨by simp [hl], fun i hi => ?_⟩
          cases i with
          | zero => simpa using hf
          | succ i => simpa using hn i (Nat.lt_of_succ_lt_succ hi)
        · rintro ⟨hl, h⟩
          cases m with
          | nil => simp at hl
          | cons c m =>
            have hl' : m.length = l.length := by simpa using hl
            have h1 := (ih m).mpr ⟨hl', fun i hi => by
              have := h (i + 1) (Nat.succ_lt_succ hi)
              simpa using this⟩
            rw [hs] at h1; cases h1
            have := h 0 (Nat.zero_lt_succ _)
            rw [List.getElem_cons_zero, hf] at this
            cases this; rfl

theorem gather_inv {α : Type} (l : List α) : ∀ (ps : List Nat) (m : List α), gather l ps = .ok m → m.map some = ps.map (fun i => l[i]?)
  | [], m, h => by simp only [gather] at h; cases h; rfl
  | p :: ps, m, h => by
    simp only [gather] at h
    cases hp : l[p]? with
    | none => simp only [hp] at h; cases h
    | some a =>
      simp only [hp] at h
      cases hg : gather l ps with
      | error e => simp only [hg] at h; cases h
      | ok n =>
        simp only [hg] at h
        cases h
        rw [List.map_cons, List.map_cons, hp, gather_inv l ps n hg]

theorem lookup_iff (P : Python V) (ns : Ns V) (x : String) (v : V) : lookup P ns x = .ok v ↔ Sees P ns x v := by
  unfold lookup Sees
  cases h : List.lookup x ns with
  | some u => simp
  | none =>
    cases hb : P.builtins x with
    | some u => simp
    | none => simp

theorem lookup_cons (ns : Ns V) (x y : String) (v : V) : List.lookup x ((y, v) :: ns) = if x = y then some v else List.lookup x ns := by
  by_cases h : x = y
  · subst h; simp [List.lookup]
  · rw [if_neg h]
    have : (x == y) = false := by simp [h]
    simp [List.lookup, this]

theorem lookup_none (ns : Ns V) (x : String) : List.lookup x ns = none ↔ ¬ Bound ns x := by
  induction ns with
  | nil => simp [Bound]
  | cons b ns ih =>
    obtain ⟨y, v⟩ := b
    rw [lookup_cons]
    by_cases h : x = y
    · subst h
      simp [Bound]
    · rw [if_neg h, ih]
      simp [Bound, h]

/-- a nested scope: evaluation gives the value of the specification -/
theorem eval_false (P : Python V) : ∀ (e : Expr V) (ns : Ns V) (v : V), eval P false ns e = .ok v ↔ Value P ns e v
  | .lit u, ns, v => by
    simp only [eval]
    constructor
    · intro h; cases h; exact .lit
    · intro h; cases h; rfl
  | .name x, ns, v => by
    simp only [eval]
    rw [lookup_iff]
    constructor
    · exact .name
    · intro h; cases h; assumption
  | .op f a b, ns, v => by
    have iha := eval_false P a ns
    have ihb := eval_false P b ns
    simp only [eval]
    constructor
    · intro h
      cases ha : eval P false ns a with
      | error e => rw [ha] at h; cases h
      | ok va =>
        rw [ha] at h
        cases hb : eval P false ns b with
        | error e => simp only [hb] at h; cases h
        | ok vb =>
          simp only [hb] at h
          exact .op ((iha va).mp ha) ((ihb vb).mp hb) h
    · intro h
      cases h with
      | op h1 h2 h3 => simp only [(iha _).mpr h1, (ihb _).mpr h2, h3]
  | .nested x iter body, ns, v => by
    have ihi := eval_false P iter ns
    have ihb := eval_false P body
    simp only [eval, Bool.false_eq_true, if_false]
    constructor
    · intro h
      cases ha : eval P false ns iter with
      | error e => simp only [ha] at h; cases h
      | ok va =>
        simp only [ha] at h
        cases hb : P.elems va with
        | error e => simp only [hb] at h; cases h
        | ok vs =>
          simp only [hb] at h
          cases hs : sequence (vs.map (fun u => eval P false ((x, u) :: ns) body)) with
          | error e => simp only [hs] at h; cases h
          | ok us =>
            simp only [hs] at h
            cases h
            obtain ⟨hl, hv⟩ := (seq_iff _ vs us).mp hs
            exact .nested ((ihi va).mp ha) hb hl (fun i hi => (ihb _ _).mp (hv i hi))
    · intro h
      cases h with
      | nested h1 h2 hl h3 =>
        rename_i va vs ws
        simp only [(ihi _).mpr h1, h2]
        have hs := (seq_iff (fun u => eval P false ((x, u) :: ns) body) vs ws).mpr ⟨hl, fun i hi => (ihb _ _).mpr (h3 i hi)⟩
        simp only [hs]

/-- the value only depends on the free names -/
theorem value_agree (P : Python V) : ∀ (e : Expr V) (n1 n2 : Ns V) (v : V), (∀ x, Free x e → List.lookup x n1 = List.lookup x n2) → Value P n1 e v → Value P n2 e v
  | .lit u, n1, n2, v, _, h => by cases h; exact .lit
  | .name x, n1, n2, v, hag, h => by
    cases h with
    | name h =>
      refine .name ?_
      unfold Sees at h ⊢
      rwa [← hag x .name]
  | .op f a b, n1, n2, v, hag, h => by
    cases h with
    | op h1 h2 h3 =>
      exact .op (value_agree P a n1 n2 _ (fun x hx => hag x (.left hx)) h1) (value_agree P b n1 n2 _ (fun x hx => hag x (.right hx)) h2) h3
  | .nested y iter body, n1, n2, v, hag, h => by
    cases h with
    | nested h1 h2 hl h3 =>
      refine .nested (value_agree P iter n1 n2 _ (fun x hx => hag x (.iter hx)) h1) h2 hl (fun i hi => ?_)
      refine value_agree P body _ _ _ (fun x hx => ?_) (h3 i hi)
      rw [lookup_cons, lookup_cons]
      by_cases h : x = y
      · rw [if_pos h, if_pos h]
      · rw [if_neg h, if_neg h]; exact hag x (.body h hx)

/-- at the top, when nested scopes take no bound name from their surroundings -/
theorem eval_true (P : Python V) : ∀ (e : Expr V) (ns : Ns V) (v : V), (∀ x, Hidden x e → List.lookup x ns = none) → (eval P true ns e = .ok v ↔ Value P ns e v)
  | .lit u, ns, v, _ => by
    simp only [eval]
    constructor
    · intro h; cases h; exact .lit
    · intro h; cases h; rfl
  | .name x, ns, v, _ => by
    simp only [eval]
    rw [lookup_iff]
    constructor
    · exact .name
    · intro h; cases h; assumption
  | .op f a b, ns, v, hh => by
    have iha := fun v => eval_true P a ns v (fun x hx => hh x (.left hx))
    have ihb := fun v => eval_true P b ns v (fun x hx => hh x (.right hx))
    simp only [eval]
    constructor
    · intro h
      cases ha : eval P true ns a with
      | error e => rw [ha] at h; cases h
      | ok va =>
        rw [ha] at h
        cases hb : eval P true ns b with
        | error e => simp only [hb] at h; cases h
        | ok vb =>
          simp only [hb] at h
          exact .op ((iha va).mp ha) ((ihb vb).mp hb) h
    · intro h
      cases h with
      | op h1 h2 h3 => simp only [(iha _).mpr h1, (ihb _).mpr h2, h3]
  | .nested x iter body, ns, v, hh => by
    have ihi := fun v => eval_true P iter ns v (fun y hy => hh y (.iter hy))
    have hag : ∀ u y, Free y body → List.lookup y [(x, u)] = List.lookup y ((x, u) :: ns) := by
      intro u y hy
      rw [lookup_cons, lookup_cons]
      by_cases h : y = x
      · rw [if_pos h, if_pos h]
      · rw [if_neg h, if_neg h, hh y (.body h hy)]; rfl
    have ihb : ∀ u w, eval P false [(x, u)] body = .ok w ↔ Value P ((x, u) :: ns) body w := by
      intro u w
      rw [eval_false]
      exact ⟨value_agree P body _ _ w (hag u), value_agree P body _ _ w (fun y hy => (hag u y hy).symm)⟩
    simp only [eval, if_true]
    constructor
    · intro h
      cases ha : eval P true ns iter with
      | error e => simp only [ha] at h; cases h
      | ok va =>
        simp only [ha] at h
        cases hb : P.elems va with
        | error e => simp only [hb] at h; cases h
        | ok vs =>
          simp only [hb] at h
          cases hs : sequence (vs.map (fun u => eval P false [(x, u)] body)) with
          | error e => simp only [hs] at h; cases h
          | ok us =>
            simp only [hs] at h
            cases h
            obtain ⟨hl, hv⟩ := (seq_iff _ vs us).mp hs
            exact .nested ((ihi va).mp ha) hb hl (fun i hi => (ihb _ _).mp (hv i hi))
    · intro h
      cases h with
      | nested h1 h2 hl h3 =>
        rename_i va vs ws
        simp only [(ihi _).mpr h1, h2]
        have hs := (seq_iff (fun u => eval P false [(x, u)] body) vs ws).mpr ⟨hl, fun i hi => (ihb _ _).mpr (h3 i hi)⟩
        simp only [hs]

/-- statements without a `with` -/
theorem exec_iff (P : Python V) : ∀ (body : List (Stmt V)) (ns ns' : Ns V), (∀ s ∈ body, s.isWith = false) →
    (∀ s ∈ body, ∀ e, Has e s → ∀ x, Hidden x e → ¬ Bound ns x ∧ ∀ s' ∈ body, ¬ Binds x s') →
    (exec P ns body = .ok ns' ↔ Steps P ns body ns')
  | [], ns, ns', _, _ => by
    simp only [exec]
    constructor
    · intro h; cases h; exact .done
    · intro h; cases h; rfl
  | .imp x v :: rest, ns, ns', hw, hh => by
    simp only [exec]
    cases v with
    | error e => exact ⟨(fun h => by cases h), (fun h => by cases h)⟩
    | ok v =>
      have ih := exec_iff P rest ((x, v) :: ns) ns' (fun s hs => hw s (List.mem_cons_of_mem _ hs)) (fun s hs e he y hy => by
        obtain ⟨h1, h2⟩ := hh s (List.mem_cons_of_mem _ hs) e he y hy
        refine ⟨?_, fun s' hs' => h2 s' (List.mem_cons_of_mem _ hs')⟩
        rintro ⟨u, hu⟩
        rcases List.mem_cons.mp hu with hu | hu
        · cases hu; exact h2 _ List.mem_cons_self .imp
        · exact h1 ⟨u, hu⟩)
      simp only
      rw [ih]
      exact ⟨.imp, fun h => by cases h; assumption⟩
  | .assign x e :: rest, ns, ns', hw, hh => by
    have he := fun v => eval_true P e ns v (fun y hy => (lookup_none ns y).mpr (hh _ List.mem_cons_self e .assign y hy).1)
    have ih := fun v => exec_iff P rest ((x, v) :: ns) ns' (fun s hs => hw s (List.mem_cons_of_mem _ hs)) (fun s hs e he y hy => by
        obtain ⟨h1, h2⟩ := hh s (List.mem_cons_of_mem _ hs) e he y hy
        refine ⟨?_, fun s' hs' => h2 s' (List.mem_cons_of_mem _ hs')⟩
        rintro ⟨u, hu⟩
        rcases List.mem_cons.mp hu with hu | hu
        · cases hu; exact h2 _ List.mem_cons_self .assign
        · exact h1 ⟨u, hu⟩)
    simp only [exec]
    constructor
    · intro h
      cases hv : eval P true ns e with
      | error e => simp only [hv] at h; cases h
      | ok v =>
        simp only [hv] at h
        exact .assign ((he v).mp hv) ((ih v).mp h)
    · intro h
      cases h with
      | assign h1 h2 => simp only [(he _).mpr h1]; exact (ih _).mpr h2
  | .expr e :: rest, ns, ns', hw, hh => by
    have he := fun v => eval_true P e ns v (fun y hy => (lookup_none ns y).mpr (hh _ List.mem_cons_self e .expr y hy).1)
    have ih := exec_iff P rest ns ns' (fun s hs => hw s (List.mem_cons_of_mem _ hs)) (fun s hs e he y hy => by
        obtain ⟨h1, h2⟩ := hh s (List.mem_cons_of_mem _ hs) e he y hy
        exact ⟨h1, fun s' hs' => h2 s' (List.mem_cons_of_mem _ hs')⟩)
    simp only [exec]
    constructor
    · intro h
      cases hv : eval P true ns e with
      | error e => simp only [hv] at h; cases h
      | ok v =>
        simp only [hv] at h
        exact .expr ((he v).mp hv) (ih.mp h)
    · intro h
      cases h with
      | expr h1 h2 => simp only [(he _).mpr h1]; exact ih.mpr h2
  | .with_ :: rest, ns, ns', hw, _ => by
    have := hw .with_ List.mem_cons_self
    cases this

/-- what statements bind: names of the namespace before, and names that they bind -/
theorem steps_bound (P : Python V) : ∀ {body : List (Stmt V)} {ns ns' : Ns V}, Steps P ns body ns' → ∀ x, Bound ns' x → Bound ns x ∨ ∃ s ∈ body, Binds x s
  | _, _, _, .done, x, h => Or.inl h
  | _, _, _, .imp h, x, hx => by
    rcases steps_bound P h x hx with ⟨u, hu⟩ | ⟨s, hs, hb⟩
    · rcases List.mem_cons.mp hu with hu | hu
      · cases hu; exact Or.inr ⟨_, List.mem_cons_self, .imp⟩
      · exact Or.inl ⟨u, hu⟩
    · exact Or.inr ⟨s, List.mem_cons_of_mem _ hs, hb⟩
  | _, _, _, .assign _ h, x, hx => by
    rcases steps_bound P h x hx with ⟨u, hu⟩ | ⟨s, hs, hb⟩
    · rcases List.mem_cons.mp hu with hu | hu
      · cases hu; exact Or.inr ⟨_, List.mem_cons_self, .assign⟩
      · exact Or.inl ⟨u, hu⟩
    · exact Or.inr ⟨s, List.mem_cons_of_mem _ hs, hb⟩
  | _, _, _, .expr _ h, x, hx => by
    rcases steps_bound P h x hx with hu | ⟨s, hs, hb⟩
    · exact Or.inl hu
    · exact Or.inr ⟨s, List.mem_cons_of_mem _ hs, hb⟩

theorem exec_append (P : Python V) : ∀ (a b : List (Stmt V)) (ns : Ns V), exec P ns (a ++ b) = match exec P ns a with
    | .error e => .error e
    | .ok n => exec P n b
  | [], b, ns => rfl
  | .imp x v :: a, b, ns => by
    cases v with
    | error e => rfl
    | ok v => simpa only [List.cons_append, exec] using exec_append P a b ((x, v) :: ns)
  | .assign x e :: a, b, ns => by
    simp only [List.cons_append, exec]
    cases eval P true ns e with
    | error e => rfl
    | ok v => exact exec_append P a b ((x, v) :: ns)
  | .expr e :: a, b, ns => by
    simp only [List.cons_append, exec]
    cases eval P true ns e with
    | error e => rfl
    | ok v => exact exec_append P a b ns
  | .with_ :: a, b, ns => by simpa only [List.cons_append, exec] using exec_append P a b ns

/-! ### what the value depends on -/

/-- two namespaces agree on names -/
def Agree (N : String → Prop) (n1 n2 : Ns V) : Prop := ∀ x, N x → List.lookup x n1 = List.lookup x n2

theorem Agree.cons {N : String → Prop} {n1 n2 : Ns V} (h : Agree N n1 n2) (y : String) (v : V) : Agree N ((y, v) :: n1) ((y, v) :: n2) := by
  intro x hx
  rw [lookup_cons, lookup_cons, h x hx]

theorem eval_agree (P : Python V) (N : String → Prop) : ∀ (e : Expr V) (top : Bool) (n1 n2 : Ns V), (∀ x ∈ e.names, N x) → Agree N n1 n2 → eval P top n1 e = eval P top n2 e
  | .lit u, top, n1, n2, _, _ => rfl
  | .name x, top, n1, n2, hN, h => by
    simp only [eval, lookup]
    rw [h x (hN x (by simp [Expr.names]))]
  | .op f a b, top, n1, n2, hN, h => by
    simp only [eval]
    rw [eval_agree P N a top n1 n2 (fun x hx => hN x (by simp [Expr.names, hx])) h, eval_agree P N b top n1 n2 (fun x hx => hN x (by simp [Expr.names, hx])) h]
  | .nested x iter body, top, n1, n2, hN, h => by
    simp only [eval]
    rw [eval_agree P N iter top n1 n2 (fun y hy => hN y (by simp [Expr.names, hy])) h]
    have hb : ∀ u, eval P false ((x, u) :: (if top = true then [] else n1)) body = eval P false ((x, u) :: (if top = true then [] else n2)) body := by
      intro u
      refine eval_agree P N body false _ _ (fun y hy => hN y (by simp [Expr.names, hy])) (Agree.cons ?_ x u)
      cases top with
      | true => exact fun _ _ => rfl
      | false => exact h
    have : (fun u => eval P false ((x, u) :: (if top = true then [] else n1)) body) = fun u => eval P false ((x, u) :: (if top = true then [] else n2)) body := funext hb
    rw [this]

/-- the namespaces left by the same statements agree -/
theorem exec_agree (P : Python V) (N : String → Prop) : ∀ (body : List (Stmt V)) (n1 n2 : Ns V), (∀ s ∈ body, ∀ x ∈ s.names, N x) → Agree N n1 n2 →
    (∃ e, exec P n1 body = .error e ∧ exec P n2 body = .error e) ∨ ∃ m1 m2, exec P n1 body = .ok m1 ∧ exec P n2 body = .ok m2 ∧ Agree N m1 m2
  | [], n1, n2, _, h => Or.inr ⟨n1, n2, rfl, rfl, h⟩
  | .imp x (.error e) :: rest, n1, n2, _, _ => Or.inl ⟨e, rfl, rfl⟩
  | .imp x (.ok v) :: rest, n1, n2, hN, h => by
    simpa only [exec] using exec_agree P N rest _ _ (fun s hs => hN s (List.mem_cons_of_mem _ hs)) (h.cons x v)
  | .assign x e :: rest, n1, n2, hN, h => by
    have he := eval_agree P N e true n1 n2 (fun y hy => hN _ List.mem_cons_self y (by simp [Stmt.names, hy])) h
    simp only [exec, he]
    cases eval P true n2 e with
    | error e => exact Or.inl ⟨e, rfl, rfl⟩
    | ok v => exact exec_agree P N rest _ _ (fun s hs => hN s (List.mem_cons_of_mem _ hs)) (h.cons x v)
  | .expr e :: rest, n1, n2, hN, h => by
    have he := eval_agree P N e true n1 n2 (fun y hy => hN _ List.mem_cons_self y (by simp [Stmt.names, hy])) h
    simp only [exec, he]
    cases eval P true n2 e with
    | error e => exact Or.inl ⟨e, rfl, rfl⟩
    | ok v => exact exec_agree P N rest _ _ (fun s hs => hN s (List.mem_cons_of_mem _ hs)) h
  | .with_ :: rest, n1, n2, hN, h => by
    simpa only [exec] using exec_agree P N rest _ _ (fun s hs => hN s (List.mem_cons_of_mem _ hs)) h

/-! ### parse -/

theorem inExpr_iff (x : String) : ∀ e : Expr V, x ∈ e.names ↔ InExpr x e
  | .lit v => by
    simp only [Expr.names, List.not_mem_nil, false_iff]
    intro h; cases h
  | .name y => by
    simp only [Expr.names, List.mem_singleton]
    constructor
    · rintro rfl; exact .name
    · intro h; cases h; rfl
  | .op f a b => by
    simp only [Expr.names, List.mem_append, inExpr_iff x a, inExpr_iff x b]
    constructor
    · rintro (h | h)
      · exact .left h
      · exact .right h
    · intro h
      cases h with
      | left h => exact Or.inl h
      | right h => exact Or.inr h
  | .nested y i b => by
    simp only [Expr.names, List.mem_append, List.mem_cons, inExpr_iff x i, inExpr_iff x b]
    constructor
    · rintro (h | rfl | h)
      · exact .iter h
      · exact .var
      · exact .body h
    · intro h
      cases h with
      | iter h => exact Or.inl h
      | var => exact Or.inr (Or.inl rfl)
      | body h => exact Or.inr (Or.inr h)

theorem inStmt_iff (x : String) : ∀ s : Stmt V, x ∈ s.names ↔ InStmt x s
  | .imp y v => by
    simp only [Stmt.names, List.not_mem_nil, false_iff]
    intro h; cases h
  | .assign y e => by
    simp only [Stmt.names, List.mem_cons, inExpr_iff]
    constructor
    · rintro (rfl | h)
      · exact .target
      · exact .value h
    · intro h
      cases h with
      | target => exact Or.inl rfl
      | value h => exact Or.inr h
  | .expr e => by
    simp only [Stmt.names, inExpr_iff]
    constructor
    · exact .expr
    · intro h; cases h; assumption
  | .with_ => by
    simp only [Stmt.names, List.not_mem_nil, false_iff]
    intro h; cases h

/-- what `parse` gives -/
theorem parse_ok {columns : List String} {body : List (Stmt V)} {f : Fun V} (h : parse columns body = .ok f) :
    (∀ s ∈ body, s.isWith = false) ∧ f.imports = body.filter Stmt.isImport ∧ body.filter (fun s => !s.isImport) = f.main ++ [.expr f.final] ∧
    f.inputs = ((body.filter (fun s => !s.isImport)).flatMap Stmt.names).dedup.filter (fun x => columns.contains x) := by
  unfold parse processWith at h
  simp only at h
  by_cases hw : (body.filter (fun s => !s.isImport)).any Stmt.isWith = true
  · rw [if_pos hw] at h; cases h
  · rw [if_neg hw] at h
    simp only at h
    have hw' : ∀ s ∈ body, s.isWith = false := by
      intro s hs
      cases s with
      | with_ =>
        refine absurd (List.any_eq_true.mpr ⟨.with_, List.mem_filter.mpr ⟨hs, rfl⟩, rfl⟩) hw
      | _ => rfl
    cases hl : (body.filter (fun s => !s.isImport)).getLast? with
    | none => simp only [hl] at h; cases h
    | some s =>
      cases s with
      | expr e =>
        simp only [hl] at h
        cases h
        refine ⟨hw', rfl, ?_, rfl⟩
        obtain ⟨ys, hys⟩ := List.getLast?_eq_some_iff.mp hl
        rw [hys]
        simp
      | imp x v => simp only [hl] at h; cases h
      | assign x e => simp only [hl] at h; cases h
      | with_ => simp only [hl] at h; cases h

end ABX.Script
