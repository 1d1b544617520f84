import Verif.Proofs.Script
/-!
C73: scripts of filters and regressors (`DBfun_Compute`): which are accepted, which columns they take, what they compute.
-/
namespace ABX.Script
open ExtSort Spec
variable {V : Type}

/-- C73: a script is accepted when it has no `with` at its top and its last statement that is not an import is an expression. -/
theorem C73_accepts (columns : List String) (body : List (Stmt V)) :
    (∃ f, parse columns body = .ok f) ↔ (Stmt.with_ ∉ body ∧ ∃ pre e post, body = pre ++ .expr e :: post ∧ ∀ s ∈ post, ∃ x v, s = .imp x v) := by
  constructor
  · rintro ⟨f, h⟩
    obtain ⟨hw, -, hr, -⟩ := parse_ok h
    refine ⟨fun hm => by simpa [Stmt.isWith] using hw _ hm, ?_⟩
    obtain ⟨pre, post, rfl, h1, h2⟩ := List.filter_eq_append_iff.mp hr
    obtain ⟨l1, l2, rfl, h3, h4, h5⟩ := List.filter_eq_cons_iff.mp h2
    refine ⟨pre ++ l1, f.final, l2, by simp, fun s hs => ?_⟩
    have := List.filter_eq_nil_iff.mp h5 s hs
    cases s with
    | imp x v => exact ⟨x, v, rfl⟩
    | _ => simp [Stmt.isImport] at this
  · rintro ⟨hw, pre, e, post, rfl, hp⟩
    have hf : (pre ++ .expr e :: post).filter (fun s => !s.isImport) = pre.filter (fun s => !s.isImport) ++ [.expr e] := by
      rw [List.filter_append, List.filter_cons]
      have : post.filter (fun s => !s.isImport) = [] := List.filter_eq_nil_iff.mpr (fun s hs => by
        obtain ⟨x, v, rfl⟩ := hp s hs; simp [Stmt.isImport])
      rw [this]; rfl
    unfold parse processWith
    simp only
    rw [if_neg, hf]
    · simp only [List.getLast?_concat]
      exact ⟨_, rfl⟩
    · intro ha
      obtain ⟨s, hs, h⟩ := List.any_eq_true.mp ha
      cases s with
      | with_ => exact hw (List.mem_filter.mp hs).1
      | _ => cases h

/-- C73: the exceptions: a `with` at the top fails for want of an attribute; without it, a script with nothing but imports fails on an index, one that ends in an assignment as the program intends. -/
theorem C73_rejects (columns : List String) (body : List (Stmt V)) :
    (Stmt.with_ ∈ body → parse columns body = .error .attributeError) ∧
    (Stmt.with_ ∉ body → (∀ s ∈ body, ∃ x v, s = .imp x v) → parse columns body = .error .indexError) ∧
    (Stmt.with_ ∉ body → ∀ pre x e post, body = pre ++ .assign x e :: post → (∀ s ∈ post, ∃ y v, s = .imp y v) → parse columns body = .error .valueError) := by
  refine ⟨fun h => ?_, fun hw h => ?_, fun hw pre x e post h hp => ?_⟩
  · unfold parse processWith
    simp only
    rw [if_pos (List.any_eq_true.mpr ⟨.with_, List.mem_filter.mpr ⟨h, rfl⟩, rfl⟩)]
  · have hf : body.filter (fun s => !s.isImport) = [] := List.filter_eq_nil_iff.mpr (fun s hs => by
      obtain ⟨x, v, rfl⟩ := h s hs; simp [Stmt.isImport])
    unfold parse processWith
    simp only
    rw [hf]
    rfl
  · subst h
    have hf : (pre ++ .assign x e :: post).filter (fun s => !s.isImport) = pre.filter (fun s => !s.isImport) ++ [.assign x e] := by
      rw [List.filter_append, List.filter_cons]
      have : post.filter (fun s => !s.isImport) = [] := List.filter_eq_nil_iff.mpr (fun s hs => by
        obtain ⟨x, v, rfl⟩ := hp s hs; simp [Stmt.isImport])
      rw [this]; rfl
    unfold parse processWith
    simp only
    rw [if_neg, hf]
    · simp only [List.getLast?_concat]
    · intro ha
      obtain ⟨s, hs, h⟩ := List.any_eq_true.mp ha
      cases s with
      | with_ => exact hw (List.mem_filter.mp hs).1
      | _ => cases h

/-- C73: the inputs of a script are the columns whose name is written in it outside of imports, each once. -/
theorem C73_inputs (columns : List String) (body : List (Stmt V)) (f : Fun V) (h : parse columns body = .ok f) :
    f.inputs.Nodup ∧ ∀ x, x ∈ f.inputs ↔ x ∈ columns ∧ ∃ s ∈ body, InStmt x s := by
  obtain ⟨-, -, -, hi⟩ := parse_ok h
  rw [hi]
  refine ⟨(List.nodup_dedup _).filter _, fun x => ?_⟩
  rw [List.mem_filter, List.mem_dedup, List.mem_flatMap, List.contains_iff_mem]
  constructor
  · rintro ⟨⟨s, hs, hx⟩, hc⟩
    exact ⟨hc, s, (List.mem_filter.mp hs).1, (inStmt_iff x s).mp hx⟩
  · rintro ⟨hc, s, hs, hx⟩
    refine ⟨⟨s, List.mem_filter.mpr ⟨hs, ?_⟩, (inStmt_iff x s).mpr hx⟩, hc⟩
    cases hx <;> rfl

/-- C73: the value of a script, or its failure, only depends on its inputs: other columns of the context do not matter. -/
theorem C73_depends (P : Python V) (columns : List String) (body : List (Stmt V)) (f : Fun V) (h : parse columns body = .ok f) (c1 c2 : Ns V)
    (h1 : ∀ x, Bound c1 x → x ∈ columns) (h2 : ∀ x, Bound c2 x → x ∈ columns) (hin : ∀ x ∈ f.inputs, List.lookup x c1 = List.lookup x c2) :
    (evaluate P f c1).map Prod.fst = (evaluate P f c2).map Prod.fst := by
  obtain ⟨-, himp, hr, hi⟩ := parse_ok h
  let N : String → Prop := fun x => ∃ s ∈ body.filter (fun s => !s.isImport), x ∈ s.names
  have hag : Agree N c1 c2 := by
    rintro x ⟨s, hs, hx⟩
    by_cases hc : x ∈ columns
    · refine hin x ?_
      rw [hi, List.mem_filter, List.mem_dedup, List.mem_flatMap, List.contains_iff_mem]
      exact ⟨⟨s, hs, hx⟩, hc⟩
    · rw [(lookup_none c1 x).mpr (fun hb => hc (h1 x hb)), (lookup_none c2 x).mpr (fun hb => hc (h2 x hb))]
  have hNi : ∀ s ∈ f.imports, ∀ x ∈ s.names, N x := by
    intro s hs x hx
    rw [himp] at hs
    have := (List.mem_filter.mp hs).2
    cases s with
    | imp y v => simp [Stmt.names] at hx
    | _ => simp [Stmt.isImport] at this
  have hNm : ∀ s ∈ f.main, ∀ x ∈ s.names, N x := fun s hs x hx => ⟨s, hr ▸ List.mem_append_left _ hs, hx⟩
  have hNf : ∀ x ∈ f.final.names, N x := fun x hx => ⟨.expr f.final, hr ▸ List.mem_append_right _ (List.mem_singleton.mpr rfl), hx⟩
  unfold evaluate
  rcases exec_agree P N f.imports c1 c2 hNi hag with ⟨e, e1, e2⟩ | ⟨m1, m2, e1, e2, ha⟩
  · simp only [e1, e2]
  · simp only [e1, e2]
    rcases exec_agree P N f.main m1 m2 hNm ha with ⟨e, e1, e2⟩ | ⟨m1, m2, e1, e2, ha⟩
    · simp only [e1, e2]
    · simp only [e1, e2]
      rw [eval_agree P N f.final true m1 m2 hNf ha]
      cases eval P true m2 f.final with
      | error e => rfl
      | ok v => rfl

/-- C73 (partial): a script whose imports come first, and whose nested scopes use no column, imported or assigned name of the script, gives the value that python gives when the script is executed in order with the columns as variables.
Missing: scripts whose nested scopes use such names (`C73_hidden`), and imports after other statements (`C73_not_in_order`). -/
theorem C73_value_partial (P : Python V) (columns : List String) (body : List (Stmt V)) (f : Fun V) (h : parse columns body = .ok f) (ctx : Ns V)
    (hi : ∃ imps rest, body = imps ++ rest ∧ (∀ s ∈ imps, ∃ x v, s = .imp x v) ∧ ∀ s ∈ rest, ¬ ∃ x v, s = .imp x v)
    (hh : ∀ s ∈ body, ∀ e, Has e s → ∀ x, Hidden x e → ¬ Bound ctx x ∧ ∀ s' ∈ body, ¬ Binds x s') (v : V) :
    (∃ ns, evaluate P f ctx = .ok (v, ns)) ↔ Result P ctx body v := by
  obtain ⟨imps, rest, rfl, hI, hR⟩ := hi
  obtain ⟨hw, himp, hr, -⟩ := parse_ok h
  have f1 : imps.filter Stmt.isImport = imps := List.filter_eq_self.mpr (fun s hs => by obtain ⟨x, v, rfl⟩ := hI s hs; rfl)
  have f2 : rest.filter Stmt.isImport = [] := List.filter_eq_nil_iff.mpr (fun s hs => by
    cases s with
    | imp x v => exact absurd ⟨x, v, rfl⟩ (hR _ hs)
    | _ => simp [Stmt.isImport])
  have f3 : imps.filter (fun s => !s.isImport) = [] := List.filter_eq_nil_iff.mpr (fun s hs => by obtain ⟨x, v, rfl⟩ := hI s hs; simp [Stmt.isImport])
  have f4 : rest.filter (fun s => !s.isImport) = rest := List.filter_eq_self.mpr (fun s hs => by
    cases s with
    | imp x v => exact absurd ⟨x, v, rfl⟩ (hR _ hs)
    | _ => rfl)
  rw [List.filter_append, f1, f2, List.append_nil] at himp
  rw [List.filter_append, f3, f4, List.nil_append] at hr
  have hbody : imps ++ rest = (f.imports ++ f.main) ++ [.expr f.final] := by rw [himp, hr, List.append_assoc]
  rw [hbody] at hh hw ⊢
  have hex := fun ns' => exec_iff P (f.imports ++ f.main) ctx ns' (fun s hs => hw s (List.mem_append_left _ hs)) (fun s hs e he x hx => by
    obtain ⟨a, b⟩ := hh s (List.mem_append_left _ hs) e he x hx
    exact ⟨a, fun s' hs' => b s' (List.mem_append_left _ hs')⟩)
  have hfin : ∀ ns', Steps P ctx (f.imports ++ f.main) ns' → ∀ v, eval P true ns' f.final = .ok v ↔ Value P ns' f.final v := by
    intro ns' hs v
    refine eval_true P f.final ns' v (fun x hx => (lookup_none ns' x).mpr (fun hb => ?_))
    obtain ⟨a, b⟩ := hh (.expr f.final) (List.mem_append_right _ (List.mem_singleton.mpr rfl)) f.final .expr x hx
    rcases steps_bound P hs x hb with hc | ⟨s, hs, hc⟩
    · exact a hc
    · exact b s (List.mem_append_left _ hs) hc
  have hev : ∀ ns, evaluate P f ctx = .ok (v, ns) ↔ exec P ctx (f.imports ++ f.main) = .ok ns ∧ eval P true ns f.final = .ok v := by
    intro ns
    rw [exec_append]
    unfold evaluate
    cases h1 : exec P ctx f.imports with
    | error e => simp
    | ok m =>
      simp only
      cases h2 : exec P m f.main with
      | error e => simp
      | ok m' =>
        simp only
        cases h3 : eval P true m' f.final with
        | error e =>
          simp only [reduceCtorEq, false_iff, not_and]
          intro hm
          cases hm
          rw [h3]; simp
        | ok w =>
          constructor
          · intro hm; cases hm; exact ⟨rfl, h3⟩
          · rintro ⟨hm, hv⟩
            cases hm
            rw [h3] at hv
            cases hv; rfl
  constructor
  · rintro ⟨ns, hns⟩
    obtain ⟨a, b⟩ := (hev ns).mp hns
    have hs := (hex ns).mp a
    exact ⟨_, _, ns, rfl, hs, (hfin ns hs v).mp b⟩
  · rintro ⟨pre, e, ns, hpe, hs, hv⟩
    obtain ⟨rfl, h2⟩ := List.append_inj' hpe rfl
    cases h2
    exact ⟨ns, (hev ns).mpr ⟨(hex ns).mpr hs, (hfin ns hs v).mpr hv⟩⟩

/-- a nested scope at the top that needs a name which is not a builtin has no value -/
theorem C73_hidden_expr (P : Python V) (x y : String) (hxy : x ≠ y) (hb : P.builtins x = none) (iter body : Expr V) (hn : Needs x body) (ns : Ns V)
    (vi u : V) (us : List V) (hi : eval P true ns iter = .ok vi) (he : P.elems vi = .ok (u :: us)) : ∀ v, eval P true ns (.nested y iter body) ≠ .ok v := by
  have key : ∀ (body : Expr V), Needs x body → ∀ v, eval P false [(y, u)] body ≠ .ok v := by
    intro body hn
    induction hn with
    | name =>
      intro v
      have hbeq : (x == y) = false := by simp [hxy]
      simp [eval, lookup, List.lookup, hbeq, hb]
    | left _ ih =>
      rename_i f a b h
      intro v hv
      simp only [eval] at hv
      cases ha : eval P false [(y, u)] a with
      | error e => simp only [ha] at hv; cases hv
      | ok w => exact ih w ha
    | right _ ih =>
      rename_i f a b h
      intro v hv
      simp only [eval] at hv
      cases ha : eval P false [(y, u)] a with
      | error e => simp only [ha] at hv; cases hv
      | ok w =>
        simp only [ha] at hv
        cases hb' : eval P false [(y, u)] b with
        | error e => simp only [hb'] at hv; cases hv
        | ok w => exact ih w hb'
    | iter _ ih =>
      rename_i z i b h
      intro v hv
      simp only [eval] at hv
      cases ha : eval P false [(y, u)] i with
      | error e => simp only [ha] at hv; cases hv
      | ok w => exact ih w ha
  intro v hv
  simp only [eval, hi, he, if_true, List.map_cons] at hv
  cases hk : eval P false [(y, u)] body with
  | error e => simp only [hk, sequence] at hv; cases hv
  | ok w => exact key body hn w hk

/-- C73: a script that is a nested scope needing a column other than its own variable never gives a value, whatever the column holds, as soon as there is an element to compute:
columns are not seen in nested scopes. -/
theorem C73_hidden (P : Python V) (columns : List String) (x y c : String) (hxy : x ≠ y) (hb : P.builtins x = none) (body : Expr V) (hn : Needs x body) (f : Fun V)
    (h : parse columns [.expr (.nested y (.name c) body)] = .ok f) (ctx : Ns V) (vi u : V) (us : List V)
    (hc : List.lookup c ctx = some vi) (he : P.elems vi = .ok (u :: us)) : ∀ r, evaluate P f ctx ≠ .ok r := by
  obtain ⟨-, himp, hr, -⟩ := parse_ok h
  have h1 : f.imports = [] := by rw [himp]; rfl
  have h2 : f.main = [] ∧ f.final = .nested y (.name c) body := by
    have : [Stmt.expr (.nested y (.name c) body)] = f.main ++ [.expr f.final] := hr
    cases hm : f.main with
    | nil => rw [hm] at this; simp at this; exact ⟨rfl, this.symm⟩
    | cons a l => rw [hm] at this; simp at this
  intro r hr'
  unfold evaluate at hr'
  rw [h1, h2.1, h2.2] at hr'
  simp only [exec] at hr'
  have hi : eval P true ctx (.name c) = .ok vi := by simp [eval, lookup, hc]
  cases hv : eval P true ctx (.nested y (.name c) body) with
  | error e => simp only [hv] at hr'; cases hr'
  | ok v => exact C73_hidden_expr P x y hxy hb (.name c) body hn ctx vi u us hi he v hv

/-- C73: each function of a stage is evaluated as if it were alone: assignments of a script are not seen by the others. -/
theorem C73_alone (P : Python V) (ctx : Ns V) (fs : List (Fun V)) (vs : List V) :
    resultGenerator P ctx fs = .ok vs ↔ List.Forall₂ (fun f v => ∃ ns, evaluate P f ctx = .ok (v, ns)) fs vs := by
  induction fs generalizing vs with
  | nil =>
    simp only [resultGenerator]
    constructor
    · intro h; cases h; exact .nil
    · intro h; cases h; rfl
  | cons f fs ih =>
    simp only [resultGenerator]
    constructor
    · intro h
      cases hf : evaluate P f ctx with
      | error e => simp only [hf] at h; cases h
      | ok r =>
        obtain ⟨v, ns⟩ := r
        simp only [hf] at h
        cases hr : resultGenerator P ctx fs with
        | error e => simp only [hr] at h; cases h
        | ok ws =>
          simp only [hr] at h
          cases h
          exact .cons ⟨ns, hf⟩ ((ih ws).mp hr)
    · intro h
      cases h with
      | cons h1 h2 =>
        obtain ⟨ns, h1⟩ := h1
        simp only [h1, (ih _).mpr h2]

/-- C73: where a script comes from: a definition that ends in `.py` is the name of a file, another one is the script. -/
theorem C73_source (read : String → Except Err String) (ast : String → Except Err (List (Stmt V))) (columns : List String) (d : List Char) :
    ((∃ stem, d = stem ++ ".py".toList) → ∀ f, construct read ast columns d = .ok f ↔ ∃ s body, read (String.ofList d) = .ok s ∧ ast s = .ok body ∧ parse columns body = .ok f) ∧
    ((¬ ∃ stem, d = stem ++ ".py".toList) → ∀ f, construct read ast columns d = .ok f ↔ ∃ body, ast (String.ofList d) = .ok body ∧ parse columns body = .ok f) := by
  have hiff : (d.length ≥ 3 ∧ d.drop (d.length - 3) = ".py".toList) ↔ ∃ stem, d = stem ++ ".py".toList := by
    constructor
    · rintro ⟨-, h⟩
      exact ⟨d.take (d.length - 3), by rw [← h, List.take_append_drop]⟩
    · rintro ⟨stem, rfl⟩
      have : (".py".toList).length = 3 := rfl
      refine ⟨by rw [List.length_append, this]; omega, ?_⟩
      rw [List.length_append, this, Nat.add_sub_cancel, List.drop_left]
  refine ⟨fun h f => ?_, fun h f => ?_⟩
  · unfold construct
    simp only
    rw [if_pos (hiff.mpr h)]
    cases hr : read (String.ofList d) with
    | error e => simp
    | ok s =>
      simp only
      cases ha : ast s with
      | error e => simp [ha]
      | ok body => simp [ha]
  · unfold construct
    simp only
    rw [if_neg (fun hc => h (hiff.mp hc))]
    simp only
    cases ha : ast (String.ofList d) with
    | error e => simp
    | ok body => simp

/-- C73: a script of the form `[body for x in column]` works on each value: on the values kept by other filters it gives the results for these values. -/
theorem C73_pointwise (P : Python V) (hP : Lawful P) (columns : List String) (x c : String) (body : Expr V) (f : Fun V)
    (h : parse columns [.expr (.nested x (.name c) body)] = .ok f) (ctx ctx' ns : Ns V) (vs ws : List V) (ps : List Nat)
    (hc : List.lookup c ctx = some (P.pack vs)) (hv : evaluate P f ctx = .ok (P.pack ws, ns)) (hr : restrict P ps ctx = .ok ctx') :
    ∃ us ns', evaluate P f ctx' = .ok (P.pack us, ns') ∧ us.map some = ps.map (fun i => ws[i]?) := by
  obtain ⟨-, himp, hrest, -⟩ := parse_ok h
  have h1 : f.imports = [] := by rw [himp]; rfl
  have h2 : f.main = [] ∧ f.final = .nested x (.name c) body := by
    have : [Stmt.expr (.nested x (.name c) body)] = f.main ++ [.expr f.final] := hrest
    cases hm : f.main with
    | nil => rw [hm] at this; simp at this; exact ⟨rfl, this.symm⟩
    | cons a l => rw [hm] at this; simp at this
  -- the results on the whole column
  have hws : sequence (vs.map (fun u => eval P false [(x, u)] body)) = .ok ws := by
    unfold evaluate at hv
    rw [h1, h2.1, h2.2] at hv
    have hi : eval P true ctx (.name c) = .ok (P.pack vs) := by simp [eval, lookup, hc]
    simp only [exec, eval, if_true] at hv hi
    simp only [hi, hP vs] at hv
    cases hs : sequence (vs.map (fun u => eval P false [(x, u)] body)) with
    | error e => simp only [hs] at hv; cases hv
    | ok us =>
      simp only [hs] at hv
      have hp : P.pack us = P.pack ws := by
        have := Except.ok.inj hv
        exact (Prod.mk.inj this).1
      have := hP us
      rw [hp, hP ws] at this
      rw [Except.ok.inj this]
  obtain ⟨hl, hw⟩ := (seq_iff _ vs ws).mp hws
  -- the kept values of the column
  have hres : ∃ kept, List.lookup c ctx' = some (P.pack kept) ∧ gather vs ps = .ok kept := by
    clear hv h
    unfold restrict at hr
    induction ctx generalizing ctx' with
    | nil => simp at hc
    | cons b ctx ih =>
      obtain ⟨y, v⟩ := b
      rw [List.map_cons] at hr
      rw [lookup_cons] at hc
      cases he : P.elems v with
      | error e => simp only [he, sequence] at hr; cases hr
      | ok es =>
        simp only [he] at hr
        cases hs : gather es ps with
        | error e => simp only [hs, sequence] at hr; cases hr
        | ok us =>
          simp only [hs] at hr
          simp only [sequence] at hr
          split at hr
          · cases hr
          · rename_i c2 hc2
            cases hr
            by_cases hcy : c = y
            · rw [if_pos hcy] at hc
              have hvv := Option.some.inj hc
              rw [hvv, hP vs] at he
              cases he
              exact ⟨us, by rw [lookup_cons, if_pos hcy], hs⟩
            · rw [if_neg hcy] at hc
              obtain ⟨kept, hk1, hk2⟩ := ih c2 hc hc2
              exact ⟨kept, by rw [lookup_cons, if_neg hcy]; exact hk1, hk2⟩
  obtain ⟨kept, hk1, hk2⟩ := hres
  have hk := gather_inv vs ps kept hk2
  have hkl : kept.length = ps.length := by simpa using congrArg List.length hk
  -- each kept position is in range
  have hin : ∀ i (hi : i < ps.length), ∃ hlt : ps[i] < vs.length, kept[i]'(hkl ▸ hi) = vs[ps[i]] := by
    intro i hi
    have hk' : some (kept[i]'(hkl ▸ hi)) = vs[ps[i]]? := by
      have := congrArg (fun l => l[i]?) hk
      simpa [hi, hkl] using this
    obtain ⟨hlt, he⟩ := List.getElem?_eq_some_iff.mp hk'.symm
    exact ⟨hlt, he.symm⟩
  let us := ps.pmap (fun i (hi : i < ws.length) => ws[i]) (fun i hi => by
    obtain ⟨j, hj, rfl⟩ := List.getElem_of_mem hi
    rw [hl]; exact (hin j hj).1)
  have hus : us.length = ps.length := List.length_pmap
  refine ⟨us, ctx', ?_, ?_⟩
  · have hseq : sequence (kept.map (fun u => eval P false [(x, u)] body)) = .ok us := by
      refine (seq_iff _ kept us).mpr ⟨hus.trans hkl.symm, fun i hi => ?_⟩
      obtain ⟨hlt, hke⟩ := hin i (hkl ▸ hi)
      rw [hke, hw _ hlt]
      simp [us]
    unfold evaluate
    rw [h1, h2.1, h2.2]
    have hi : eval P true ctx' (.name c) = .ok (P.pack kept) := by simp [eval, lookup, hk1]
    simp only [exec, eval, if_true] at hi ⊢
    simp only [hi, hP kept, hseq]
  · refine List.ext_getElem (by simp [hus]) (fun i h1 h2 => ?_)
    have hi : i < ps.length := by simpa using h2
    obtain ⟨hlt, -⟩ := hin i hi
    simp [us, List.getElem?_eq_getElem (hl ▸ hlt : ps[i] < ws.length)]

/-! ### concrete cases -/

/-- python values for the examples -/
inductive Py where
  | int (n : Int)
  | list (l : List Py)

namespace Ex

/-- no builtins -/
def py : Python Py where
  builtins := fun _ => none
  elems := fun v => match v with | .list l => .ok l | .int _ => .error .typeError
  pack := .list

theorem lawful : Lawful py := fun _ => rfl

/-- `x == y` on integers -/
def same : Py → Py → Except Err Py
  | .int a, .int b => .ok (.int (if a = b then 1 else 0))
  | _, _ => .error .typeError

/-- `x == y[0]` for each `x` -/
def sameAsFirst : Py → Py → Except Err Py
  | .list l, .list (.int b :: _) => .ok (.list (l.map (fun v => match v with | .int a => .int (if a = b then 1 else 0) | v => v)))
  | _, _ => .error .typeError

/-- `import m; t = [v == 1 for v in talker]; [u for u in t]` -/
def script : List (Stmt Py) := [.imp "m" (.ok (.int 7)), .assign "t" (.nested "v" (.name "talker") (.op same (.name "v") (.lit (.int 1)))), .expr (.nested "u" (.name "t") (.name "u"))]

/-- the columns -/
def cols : List String := ["talker", "vowel"]

/-- the parsed script -/
def fn : Fun Py := ⟨[.imp "m" (.ok (.int 7))], [.assign "t" (.nested "v" (.name "talker") (.op same (.name "v") (.lit (.int 1))))], .nested "u" (.name "t") (.name "u"), ["talker"]⟩

/-- a context -/
def ctx : Ns Py := [("talker", .list [.int 1, .int 2, .int 1])]

theorem script_parse : parse cols script = .ok fn := by
  have : (["t", "talker", "v", "v", "t", "u", "u"] : List String).dedup.filter (fun x => cols.contains x) = ["talker"] := by decide
  simp only [parse, processWith, script, fn]
  simp only [List.filter, Stmt.isImport, Bool.not_true, Bool.not_false, List.any, Stmt.isWith, Bool.or_self, Bool.false_eq_true, if_false, List.getLast?, List.getLast, List.dropLast]
  rw [← this]
  rfl

theorem script_evaluate : ∃ ns, evaluate py fn ctx = .ok (.list [.int 1, .int 0, .int 1], ns) := ⟨_, rfl⟩

/-- the script meets the hypotheses of `C73_value_partial` and has the value that python gives -/
example : Result py ctx script (.list [.int 1, .int 0, .int 1]) := by
  refine (C73_value_partial py cols script fn script_parse ctx ⟨[.imp "m" (.ok (.int 7))], _, rfl, ?_, ?_⟩ ?_ _).mp script_evaluate
  · intro s hs
    exact ⟨_, _, List.mem_singleton.mp hs⟩
  · intro s hs
    rcases List.mem_cons.mp hs with rfl | hs
    · rintro ⟨x, v, h⟩; cases h
    · rw [List.mem_singleton.mp hs]; rintro ⟨x, v, h⟩; cases h
  · intro s hs e he x hx
    exfalso
    simp only [script, List.mem_cons, List.not_mem_nil, or_false] at hs
    rcases hs with rfl | rfl | rfl
    · cases he
    · cases he
      cases hx with
      | iter h => cases h
      | body hne h =>
        cases h with
        | left h => cases h; exact hne rfl
        | right h => cases h
    · cases he
      cases hx with
      | iter h => cases h
      | body hne h => cases h; exact hne rfl

/-- `C73_depends`: another column in the context changes nothing -/
example : (evaluate py fn ctx).map Prod.fst = (evaluate py fn (("vowel", .int 3) :: ctx)).map Prod.fst := by
  refine C73_depends py cols script fn script_parse _ _ ?_ ?_ ?_
  · rintro x ⟨v, hv⟩
    cases List.mem_singleton.mp hv; simp [cols]
  · rintro x ⟨v, hv⟩
    rcases List.mem_cons.mp hv with hv | hv
    · cases hv; simp [cols]
    · cases List.mem_singleton.mp hv; simp [cols]
  · intro x hx
    cases List.mem_singleton.mp hx
    rfl

/-- the script `[v == vowel for v in talker]` -/
def bad : List (Stmt Py) := [.expr (.nested "v" (.name "talker") (.op same (.name "v") (.name "vowel")))]

/-- the parsed script -/
def badFn : Fun Py := ⟨[], [], .nested "v" (.name "talker") (.op same (.name "v") (.name "vowel")), ["talker", "vowel"]⟩

theorem bad_parse : parse cols bad = .ok badFn := by
  simp only [parse, processWith, bad, badFn, cols]
  simp [Stmt.isImport, Stmt.isWith, Stmt.names, Expr.names]

/-- `[v == 1 for v in talker]` -/
def one : List (Stmt Py) := [.expr (.nested "v" (.name "talker") (.op same (.name "v") (.lit (.int 1))))]

/-- the parsed script -/
def oneFn : Fun Py := ⟨[], [], .nested "v" (.name "talker") (.op same (.name "v") (.lit (.int 1))), ["talker"]⟩

theorem one_parse : parse cols one = .ok oneFn := by
  simp only [parse, processWith, one, oneFn, cols]
  simp [Stmt.isImport, Stmt.isWith, Stmt.names, Expr.names]

/-- `C73_pointwise` on the second and third values -/
example : ∃ us ns', evaluate py oneFn [("talker", .list [.int 2, .int 1])] = .ok (.list us, ns') ∧ us.map some = [1, 2].map (fun i => [Py.int 1, .int 0, .int 1][i]?) :=
  C73_pointwise py lawful cols "v" "talker" _ oneFn one_parse ctx _ ctx [.int 1, .int 2, .int 1] [.int 1, .int 0, .int 1] [1, 2] rfl rfl rfl

/-- accepted and rejected scripts -/
example : (∃ f, parse cols script = .ok f) ∧ parse cols ([.with_, .expr (.lit (.int 1))] : List (Stmt Py)) = .error .attributeError ∧
    parse cols ([.imp "m" (.ok (.int 7))] : List (Stmt Py)) = .error .indexError ∧ parse cols ([.assign "t" (.lit (.int 1))] : List (Stmt Py)) = .error .valueError :=
  ⟨⟨fn, script_parse⟩, rfl, rfl, rfl⟩

/-- the inputs of the script with the local name `t` -/
example : "talker" ∈ fn.inputs ∧ "vowel" ∉ fn.inputs ∧ "t" ∉ fn.inputs := by decide

/-- two functions of a stage -/
example : ∃ vs, resultGenerator py ctx [fn, oneFn] = .ok vs ∧ vs.length = 2 := ⟨_, rfl, rfl⟩

/-- a file and a text -/
example : construct (fun _ => .ok "from file") (fun s => .ok [.expr (.lit (.int (if s = "from file" then 1 else 2)))]) cols "a.py".toList = .ok (⟨[], [], .lit (.int 1), []⟩ : Fun Py) ∧
    construct (fun _ => .ok "from file") (fun s => .ok [.expr (.lit (.int (if s = "from file" then 1 else 2)))]) cols "a".toList = .ok (⟨[], [], .lit (.int 2), []⟩ : Fun Py) := by
  constructor <;> simp [construct, parse, processWith, Stmt.isImport, Stmt.isWith, Stmt.names, Expr.names]

end Ex

/-- C73: the full claim is false: a script can have a value in python, with its columns as variables, and fail when it is evaluated by the program, although the columns are its inputs and are in the context. -/
theorem C73_not_value : ¬ ∀ (P : Python Py) (columns : List String) (body : List (Stmt Py)) (f : Fun Py), parse columns body = .ok f → ∀ ctx v, (∀ x ∈ f.inputs, Bound ctx x) →
    Result P ctx body v → ∃ ns, evaluate P f ctx = .ok (v, ns) := by
  intro H
  let ctx : Ns Py := [("talker", .list [.int 1, .int 2]), ("vowel", .int 1)]
  obtain ⟨ns, h⟩ := H Ex.py Ex.cols Ex.bad Ex.badFn Ex.bad_parse ctx (.list [.int 1, .int 0]) (by
    intro x hx
    simp only [Ex.badFn, List.mem_cons, List.not_mem_nil, or_false] at hx
    rcases hx with rfl | rfl
    · exact ⟨_, List.mem_cons_self⟩
    · exact ⟨_, List.mem_cons_of_mem _ List.mem_cons_self⟩) ⟨[], _, ctx, rfl, .done, by
      refine .nested (vs := [Py.int 1, Py.int 2]) (ws := [Py.int 1, Py.int 0]) (.name (Or.inl rfl)) rfl rfl (fun i hi => ?_)
      have hi' : i < 2 := hi
      match i, hi' with
      | 0, _ => exact .op (.name (Or.inl rfl)) (.name (Or.inl rfl)) rfl
      | 1, _ => exact .op (.name (Or.inl rfl)) (.name (Or.inl rfl)) rfl⟩
  exact C73_hidden Ex.py Ex.cols "vowel" "v" "talker" (by decide) rfl _ (.right .name) Ex.badFn Ex.bad_parse ctx _ _ _ rfl rfl _ h

/-- C73: imports are executed before everything else: with an import after an assignment of the same name, the program does not give the value that python gives. -/
theorem C73_not_in_order : ∃ (body : List (Stmt Py)) (f : Fun Py), parse [] body = .ok f ∧ Result Ex.py [] body (.int 2) ∧ ∃ ns, evaluate Ex.py f [] = .ok (.int 1, ns) := by
  refine ⟨[.assign "t" (.lit (.int 1)), .imp "t" (.ok (.int 2)), .expr (.name "t")], ⟨[.imp "t" (.ok (.int 2))], [.assign "t" (.lit (.int 1))], .name "t", []⟩, ?_, ?_, ?_⟩
  · rfl
  · exact ⟨[.assign "t" (.lit (.int 1)), .imp "t" (.ok (.int 2))], _, _, rfl, .assign .lit (.imp .done), .name (Or.inl rfl)⟩
  · exact ⟨_, rfl⟩

/-- C73: an input need not matter: the variable of a nested scope with the name of a column makes this column an input. -/
theorem C73_not_minimal : ∃ (body : List (Stmt Py)) (f : Fun Py), parse Ex.cols body = .ok f ∧ "vowel" ∈ f.inputs ∧
    ∀ (P : Python Py) (ctx : Ns Py) (v : Py), (evaluate P f (("vowel", v) :: ctx)).map Prod.fst = (evaluate P f ctx).map Prod.fst := by
  refine ⟨[.expr (.nested "vowel" (.name "talker") (.name "vowel"))], ⟨[], [], .nested "vowel" (.name "talker") (.name "vowel"), ["talker", "vowel"]⟩, ?_, by simp, ?_⟩
  · simp [parse, processWith, Stmt.isImport, Stmt.isWith, Stmt.names, Expr.names, Ex.cols]
  · intro P ctx v
    have h : lookup P (("vowel", v) :: ctx) "talker" = lookup P ctx "talker" := by
      unfold lookup
      rw [lookup_cons, if_neg (by decide)]
    simp only [evaluate, exec, eval, h, if_true]
    cases lookup P ctx "talker" with
    | error e => rfl
    | ok u =>
      simp only
      cases P.elems u with
      | error e => rfl
      | ok us =>
        simp only
        cases sequence (us.map (fun u => lookup P [("vowel", u)] "vowel")) with
        | error e => rfl
        | ok ws => rfl

/-- C73: scripts in general do not work value by value: comparing with the first value, the result for the values kept by another filter is not the result for these values among all of them. -/
theorem C73_not_pointwise : ∃ (body : List (Stmt Py)) (f : Fun Py) (ctx ctx' : Ns Py), parse Ex.cols body = .ok f ∧ restrict Ex.py [1] ctx = .ok ctx' ∧
    (∃ ns, evaluate Ex.py f ctx = .ok (.list [.int 1, .int 0], ns)) ∧ ∃ ns, evaluate Ex.py f ctx' = .ok (.list [.int 1], ns) := by
  refine ⟨[.expr (.op Ex.sameAsFirst (.name "talker") (.name "talker"))], ⟨[], [], .op Ex.sameAsFirst (.name "talker") (.name "talker"), ["talker"]⟩,
    [("talker", .list [.int 1, .int 2])], [("talker", .list [.int 2])], ?_, rfl, ⟨_, rfl⟩, ⟨_, rfl⟩⟩
  simp [parse, processWith, Stmt.isImport, Stmt.isWith, Stmt.names, Expr.names, Ex.cols]

#print axioms C73_accepts
#print axioms C73_rejects
#print axioms C73_inputs
#print axioms C73_depends
#print axioms C73_value_partial
#print axioms C73_hidden_expr
#print axioms C73_hidden
#print axioms C73_alone
#print axioms C73_source
#print axioms C73_pointwise
#print axioms C73_not_value
#print axioms C73_not_in_order
#print axioms C73_not_minimal
#print axioms C73_not_pointwise

end ABX.Script
