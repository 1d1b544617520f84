import Verif.Proofs.ArgparseLoop
/-!
C99: The words of a command line give the programs the arguments that are written.
-/
namespace ABX.Argparse
open Database (Text)
open Spec

/-- C99: the positional arguments first and then the options, the first form of the documentation of task.py: all values are stored as they are written. -/
theorem C99_before {P : Parser} (hP : Sane P) {isInt : Text → Bool} {gs : List Group} {l : List Text} (hw : Written P gs l) (hf : ∀ g ∈ gs, Fits isInt g) (hr : ∀ o ∈ P.opts, o.required = true → ∃ g ∈ gs, g.opt = o)
    {vs : List Text} (hv : ∀ v ∈ vs, Value v) (h1 : must P ≤ vs.length) (h2 : vs.length ≤ P.pos.length) : ∃ ns, parse P isInt (vs ++ l) = .ok ns ∧ Means P vs gs ns := by
  obtain ⟨bs, hb, hc⟩ := written_blocks hP hw
  have hc' : classify P (vs ++ l) = .ok (vs.map Item.arg ++ bs) := by
    have := hc []
    rw [List.append_nil] at this
    rw [classify_values _ hv, this]
    simp [classify, Except.map]
  have hd : ∀ v ∈ vs, v ≠ "--".toList := by rintro v h rfl; exact hv _ h rfl
  have hs := sane_sorted hP
  have h1 : mustCount P.pos ≤ vs.length := h1
  have h0 := sane_must hP
  have hcons := consume_args (s := {}) hs h1 h2 (blocks_stop hb) hd
  cases vs with
  | nil => rw [List.length_nil] at h1; omega
  | cons v vs =>
    by_cases hg : gs = []
    · subst hg
      obtain rfl : bs = [] := hb
      have hl : loop P isInt (((v :: vs).map Item.arg ++ []).length + 1) P.pos ((v :: vs).map Item.arg ++ []) {} = .ok (P.pos, (v :: vs).map Item.arg ++ [], {}) := by
        unfold loop
        rw [if_neg (by rw [List.append_nil, args_any]; simp)]
      refine ⟨_, parse_ok hc' hl hcons ?_ ?_ rfl, ?_⟩
      · intro q hq
        simpa [afterPos] using hq
      · intro o ho hro
        obtain ⟨g, hg, -⟩ := hr o ho hro
        cases hg
      · have := means_of hP (vs := v :: vs) (gs := []) (by simp) (A := []) (B := ((P.pos.zip (v :: vs)).map (fun q => (q.1.dest, [q.2]))).reverse) rfl
        simpa [afterPos] using this
    · have ha := blocks_any hb hg [] []
      rw [List.append_nil, List.nil_append] at ha
      have hl := loop_first (P := P) (isInt := isInt) (fuel := ((v :: vs).map Item.arg ++ bs).length) ha hcons
      have hg' := loop_groups (P := P) (isInt := isInt) (T := []) rfl gs bs (afterPos P.pos (v :: vs) {}) ((v :: vs).map Item.arg ++ bs).length [] hb hf (by simp) (by
        have := blocks_length hb
        rw [List.length_append, List.map_cons, List.length_cons]
        omega)
      rw [List.append_nil] at hg'
      rw [hg'] at hl
      refine ⟨_, parse_ok hc' hl (ps' := []) (s' := after gs (afterPos P.pos (v :: vs) {})) rfl ?_ ?_ rfl, ?_⟩
      · intro q hq
        simpa [after, afterPos] using hq
      · intro o ho hro
        obtain ⟨g, hg, rfl⟩ := hr o ho hro
        simp only [after, List.mem_append, List.mem_map, List.mem_reverse]
        exact Or.inl ⟨g, hg, rfl⟩
      · have := means_of hP (vs := v :: vs) (gs := gs) (written_opt hw) (A := []) (B := ((P.pos.zip (v :: vs)).map (fun q => (q.1.dest, [q.2]))).reverse) rfl
        simpa [after, afterPos] using this

/-- C99: the options, '--' and the positional arguments, the second form of the documentation of task.py: all values are stored as they are written, and the positional arguments may begin with '-'. -/
theorem C99_dashes {P : Parser} (hP : Sane P) {isInt : Text → Bool} {gs : List Group} {l : List Text} (hw : Written P gs l) (hf : ∀ g ∈ gs, Fits isInt g) (hr : ∀ o ∈ P.opts, o.required = true → ∃ g ∈ gs, g.opt = o)
    {vs : List Text} (hv : ∀ v ∈ vs, v ≠ "--".toList) (h1 : must P ≤ vs.length) (h2 : vs.length ≤ P.pos.length) : ∃ ns, parse P isInt (l ++ "--".toList :: vs) = .ok ns ∧ Means P vs gs ns := by
  obtain ⟨bs, hb, hc⟩ := written_blocks hP hw
  have hc' : classify P (l ++ "--".toList :: vs) = .ok (bs ++ .dash :: vs.map Item.arg) := by
    rw [hc, classify, if_pos rfl]
    rfl
  have hcons := consume_dashed (s := after gs {}) (sane_sorted hP) (sane_must hP) h1 h2 hv
  have hl := loop_groups (P := P) (isInt := isInt) (T := .dash :: vs.map Item.arg) (by rw [List.any_cons, args_any]; rfl) gs bs {} ((bs ++ .dash :: vs.map Item.arg).length + 1) P.pos hb hf (by simp) (by
    have := blocks_length hb
    rw [List.length_append]
    omega)
  refine ⟨_, parse_ok hc' hl hcons ?_ ?_ rfl, ?_⟩
  · intro q hq
    simpa [after, afterPos] using hq
  · intro o ho hro
    obtain ⟨g, hg, rfl⟩ := hr o ho hro
    simp only [afterPos, after, List.mem_append, List.mem_map, List.mem_reverse]
    exact Or.inl ⟨g, hg, rfl⟩
  · have := means_of hP (vs := vs) (gs := gs) (written_opt hw) (B := []) (A := ((P.pos.zip vs).map (fun q => (q.1.dest, [q.2]))).reverse) (by rw [List.append_nil])
    simpa [after, afterPos] using this

/-- C99: positional arguments after the options without '--': they are stored as they are written if an argument that must be given is still missing before the options and the last option does not take one or more arguments. -/
theorem C99_between {P : Parser} (hP : Sane P) {isInt : Text → Bool} {gs : List Group} {l : List Text} (hw : Written P gs l) (hf : ∀ g ∈ gs, Fits isInt g) (hr : ∀ o ∈ P.opts, o.required = true → ∃ g ∈ gs, g.opt = o)
    (hl : ∀ g ∈ gs.getLast?, g.opt.nargs ≠ .plus) {vs ws : List Text} (hv : ∀ v ∈ vs, Value v) (hv' : ∀ v ∈ ws, Value v) (h0 : vs.length < must P) (h1 : must P ≤ (vs ++ ws).length) (h2 : (vs ++ ws).length ≤ P.pos.length) :
    ∃ ns, parse P isInt (vs ++ (l ++ ws)) = .ok ns ∧ Means P (vs ++ ws) gs ns := by
  by_cases hg : gs = []
  · subst hg
    cases hw
    exact C99_before hP .nil hf hr (vs := vs ++ ws) (fun v h => (List.mem_append.mp h).elim (hv v) (hv' v)) h1 h2 |>.imp fun ns h => by simpa using h
  obtain ⟨bs, hb, hc⟩ := written_blocks hP hw
  have hc' : classify P (vs ++ (l ++ ws)) = .ok (vs.map Item.arg ++ (bs ++ ws.map Item.arg)) := by
    have := classify_values (P := P) ws hv' []
    rw [List.append_nil] at this
    rw [classify_values _ hv, hc, this]
    simp [classify, Except.map]
  have hd : ∀ v ∈ vs, v ≠ "--".toList := by rintro v h rfl; exact hv _ h rfl
  have hd' : ∀ v ∈ ws, v ≠ "--".toList := by rintro v h rfl; exact hv' _ h rfl
  have hs := sane_sorted hP
  have h0 : vs.length < mustCount P.pos := h0
  have h1 : mustCount P.pos ≤ (vs ++ ws).length := h1
  rw [List.length_append] at h1 h2
  have hstop : Stop (bs ++ ws.map Item.arg) := by
    cases gs with
    | nil => exact absurd rfl hg
    | cons g gs =>
      obtain ⟨a, b, rfl, ⟨t, x, as, rfl, -⟩, -⟩ := hb
      exact ⟨by simp, by simp⟩
  have hsd : Sorted (P.pos.drop vs.length) := List.Pairwise.sublist (List.drop_sublist _ _) hs
  have hmd : mustCount (P.pos.drop vs.length) = mustCount P.pos - vs.length := by
    have e := congrArg mustCount (List.take_append_drop vs.length P.pos)
    rw [mustCount_append, mustCount_take hs (by omega)] at e
    omega
  have hcons := consume_args (ps := P.pos.drop vs.length) (vs := ws) (R := []) (s := after gs (afterPos (P.pos.take vs.length) vs {})) hsd (by omega) (by rw [List.length_drop]; omega) ⟨by simp, by simp⟩ hd'
  rw [List.append_nil] at hcons
  have ha := blocks_any hb hg [] (ws.map Item.arg)
  rw [List.nil_append] at ha
  have hlen := blocks_length hb
  have hl : loop P isInt ((vs.map Item.arg ++ (bs ++ ws.map Item.arg)).length + 1) P.pos (vs.map Item.arg ++ (bs ++ ws.map Item.arg)) {} = .ok (P.pos.drop vs.length, ws.map Item.arg, after gs (afterPos (P.pos.take vs.length) vs {})) := by
    have hgo : ∀ fuel, gs.length < fuel → loop P isInt fuel (P.pos.drop vs.length) (bs ++ ws.map Item.arg) (afterPos (P.pos.take vs.length) vs {}) = .ok (P.pos.drop vs.length, ws.map Item.arg, after gs (afterPos (P.pos.take vs.length) vs {})) :=
      fun fuel hfu => loop_groups (args_any ws) gs bs _ fuel _ hb hf (fun v T' _ => hl) hfu
    cases vs with
    | nil =>
      have := hgo ((bs ++ ws.map Item.arg).length + 1) (by rw [List.length_append]; omega)
      simpa [afterPos] using this
    | cons v vs =>
      rw [loop_first ha (consume_few hs h0 hstop hd)]
      exact hgo _ (by rw [List.length_append, List.length_append, List.map_cons, List.length_cons]; omega)
  refine ⟨_, parse_ok hc' hl hcons ?_ ?_ rfl, ?_⟩
  · intro q hq
    have : q ∈ P.pos.take vs.length ∨ q ∈ P.pos.drop vs.length := by rw [← List.mem_append, List.take_append_drop]; exact hq
    simpa [after, afterPos] using this.symm
  · intro o ho hro
    obtain ⟨g, hg, rfl⟩ := hr o ho hro
    simp only [afterPos, after, List.mem_append, List.mem_map, List.mem_reverse]
    exact Or.inl ⟨g, hg, rfl⟩
  · have hz : P.pos.zip (vs ++ ws) = (P.pos.take vs.length).zip vs ++ (P.pos.drop vs.length).zip ws := by
      have hle := mustCount_le P.pos
      conv => lhs; rw [← List.take_append_drop vs.length P.pos]
      exact List.zip_append (by rw [List.length_take]; omega)
    have := means_of hP (vs := vs ++ ws) (gs := gs) (written_opt hw) (A := (((P.pos.drop vs.length).zip ws).map (fun q => (q.1.dest, [q.2]))).reverse) (B := (((P.pos.take vs.length).zip vs).map (fun q => (q.1.dest, [q.2]))).reverse) (by
      rw [hz, List.map_append, List.reverse_append])
    simpa [after, afterPos] using this

/-- C99: a positional argument that may be missing cannot be written after options without '--': when all that must be given are written before the options the call is refused, if the last option does not take one or more arguments. -/
theorem C99_late {P : Parser} (hP : Sane P) {isInt : Text → Bool} {gs : List Group} {l : List Text} (hw : Written P gs l) (hg : gs ≠ []) (hf : ∀ g ∈ gs, Fits isInt g)
    (hl : ∀ g ∈ gs.getLast?, g.opt.nargs ≠ .plus) {vs ws : List Text} (hv : ∀ v ∈ vs, Value v) (hv' : ∀ v ∈ ws, Value v) (h0 : must P ≤ vs.length) (h1 : vs.length ≤ P.pos.length) (hws : ws ≠ []) :
    parse P isInt (vs ++ (l ++ ws)) = .error .usage := by
  obtain ⟨bs, hb, hc⟩ := written_blocks hP hw
  have hc' : classify P (vs ++ (l ++ ws)) = .ok (vs.map Item.arg ++ (bs ++ ws.map Item.arg)) := by
    have := classify_values (P := P) ws hv' []
    rw [List.append_nil] at this
    rw [classify_values _ hv, hc, this]
    simp [classify, Except.map]
  have hd : ∀ v ∈ vs, v ≠ "--".toList := by rintro v h rfl; exact hv _ h rfl
  have hs := sane_sorted hP
  have h0 : mustCount P.pos ≤ vs.length := h0
  have hm := sane_must hP
  have hstop : Stop (bs ++ ws.map Item.arg) := by
    cases gs with
    | nil => exact absurd rfl hg
    | cons g gs =>
      obtain ⟨a, b, rfl, ⟨t, x, as, rfl, -⟩, -⟩ := hb
      exact ⟨by simp, by simp⟩
  have ha := blocks_any hb hg [] (ws.map Item.arg)
  rw [List.nil_append] at ha
  have hlen := blocks_length hb
  cases vs with
  | nil => rw [List.length_nil] at h0; omega
  | cons v vs =>
    have hlo : loop P isInt (((v :: vs).map Item.arg ++ (bs ++ ws.map Item.arg)).length + 1) P.pos ((v :: vs).map Item.arg ++ (bs ++ ws.map Item.arg)) {} = .ok ([], ws.map Item.arg, after gs (afterPos P.pos (v :: vs) {})) := by
      rw [loop_first ha (consume_args hs h0 h1 hstop hd)]
      exact loop_groups (args_any ws) gs bs _ _ _ hb hf (fun v T' _ => hl) (by rw [List.length_append, List.length_append, List.map_cons, List.length_cons]; omega)
    exact parse_missing hc' hlo (ps' := []) (T' := ws.map Item.arg) (s' := after gs (afterPos P.pos (v :: vs) {})) rfl (Or.inr (Or.inr (by simpa using hws)))

/-- C99: too few positional arguments before the options: the call is refused. -/
theorem C99_few {P : Parser} (hP : Sane P) {isInt : Text → Bool} {gs : List Group} {l : List Text} (hw : Written P gs l) (hf : ∀ g ∈ gs, Fits isInt g)
    {vs : List Text} (hv : ∀ v ∈ vs, Value v) (h : vs.length < must P) : parse P isInt (vs ++ l) = .error .usage := by
  obtain ⟨bs, hb, hc⟩ := written_blocks hP hw
  have hc' : classify P (vs ++ l) = .ok (vs.map Item.arg ++ bs) := by
    have := hc []
    rw [List.append_nil] at this
    rw [classify_values _ hv, this]
    simp [classify, Except.map]
  have hd : ∀ v ∈ vs, v ≠ "--".toList := by rintro v h rfl; exact hv _ h rfl
  have hs := sane_sorted hP
  have h : vs.length < mustCount P.pos := h
  have hle := mustCount_le P.pos
  -- the first positional argument that gets no value
  have hq : ∃ q ∈ P.pos, q.may = false ∧ q ∉ P.pos.take vs.length := by
    have hlt : vs.length < P.pos.length := by omega
    refine ⟨P.pos[vs.length], List.getElem_mem hlt, ?_, ?_⟩
    · have e := mustCount_take hs (n := vs.length + 1) (by omega)
      rw [List.take_succ_eq_append_getElem hlt, mustCount_append, mustCount_take hs (by omega), mustCount_cons] at e
      cases hx : P.pos[vs.length].may
      · rfl
      · rw [hx] at e; simp [mustCount] at e
    · have hn : P.pos.Nodup := List.Nodup.of_map _ (List.nodup_append.mp hP.dests).1
      intro hmem
      obtain ⟨j, hj, e⟩ := List.mem_iff_getElem.mp hmem
      rw [List.getElem_take] at e
      rw [List.length_take] at hj
      have := (List.Nodup.getElem_inj_iff hn).mp e
      omega
  -- nothing more is taken when there is nothing more
  have hnil : ∀ (gs' : List Group), consumePositionals (P.pos.drop vs.length) [] (after gs' (afterPos (P.pos.take vs.length) vs {})) = (P.pos.drop vs.length, [], after gs' (afterPos (P.pos.take vs.length) vs {})) := by
    intro gs'
    have hsd : Sorted (P.pos.drop vs.length) := List.Pairwise.sublist (List.drop_sublist _ _) hs
    have hmd : mustCount (P.pos.drop vs.length) = mustCount P.pos - vs.length := by
      have e := congrArg mustCount (List.take_append_drop vs.length P.pos)
      rw [mustCount_append, mustCount_take hs (by omega)] at e
      omega
    have := consume_few (ps := P.pos.drop vs.length) (vs := []) (R := []) (s := after gs' (afterPos (P.pos.take vs.length) vs {})) hsd (by rw [List.length_nil]; omega) ⟨by simp, by simp⟩ (by simp)
    simpa [afterPos] using this
  have hlen := blocks_length hb
  have hcons := consume_few (s := {}) hs h (blocks_stop hb) hd
  by_cases hg : gs = []
  · subst hg
    obtain rfl : bs = [] := hb
    have hlo : loop P isInt ((vs.map Item.arg ++ []).length + 1) P.pos (vs.map Item.arg ++ []) {} = .ok (P.pos, vs.map Item.arg ++ [], {}) := by
      unfold loop
      rw [if_neg (by rw [List.append_nil, args_any]; simp)]
    refine parse_missing hc' hlo hcons (Or.inl ?_)
    obtain ⟨q, h1, h2, h3⟩ := hq
    exact ⟨q, h1, h2, by simpa [afterPos] using h3⟩
  · have hgo : ∀ fuel, gs.length < fuel → loop P isInt fuel (P.pos.drop vs.length) bs (afterPos (P.pos.take vs.length) vs {}) = .ok (P.pos.drop vs.length, [], after gs (afterPos (P.pos.take vs.length) vs {})) := by
      intro fuel hfu
      have := loop_groups (P := P) (isInt := isInt) (T := []) rfl gs bs (afterPos (P.pos.take vs.length) vs {}) fuel (P.pos.drop vs.length) hb hf (by simp) hfu
      rwa [List.append_nil] at this
    have ha := blocks_any hb hg [] []
    rw [List.append_nil, List.nil_append] at ha
    have hlo : loop P isInt ((vs.map Item.arg ++ bs).length + 1) P.pos (vs.map Item.arg ++ bs) {} = .ok (P.pos.drop vs.length, [], after gs (afterPos (P.pos.take vs.length) vs {})) := by
      cases vs with
      | nil =>
        have := hgo (bs.length + 1) (by omega)
        simpa [afterPos] using this
      | cons v vs =>
        rw [loop_first ha hcons]
        exact hgo _ (by rw [List.length_append, List.map_cons, List.length_cons]; omega)
    refine parse_missing hc' hlo (hnil gs) (Or.inl ?_)
    obtain ⟨q, h1, h2, h3⟩ := hq
    exact ⟨q, h1, h2, by simpa [after, afterPos] using h3⟩

/-- C99: what is written after an option that takes one or more arguments is taken by this option, also what is meant as a positional argument: without '--' the call is refused. -/
theorem C99_swallowed {P : Parser} (hP : Sane P) {isInt : Text → Bool} {gs : List Group} {l : List Text} (hw : Written P gs l) (hf : ∀ g ∈ gs, Fits isInt g) {o : Opt} {s : Text} (hs : Names P s o) (ho : o.nargs = .plus)
    {args vs : List Text} (h0 : args ≠ []) (hv : ∀ v ∈ args ++ vs, Value v) (hi : o.int = true → ∀ v ∈ args ++ vs, isInt v = true) : parse P isInt (l ++ s :: (args ++ vs)) = .error .usage := by
  have hw' : Written P (gs ++ [⟨o, args ++ vs⟩]) (l ++ (s :: (args ++ vs) ++ [])) := written_append hw (.cons (.apart hs hv) .nil)
  rw [List.append_nil] at hw'
  refine C99_few hP hw' ?_ (vs := []) (by simp) (sane_must hP)
  intro g hg
  rcases List.mem_append.mp hg with hg | hg
  · exact hf g hg
  · rw [List.mem_singleton.mp hg]
    refine ⟨?_, hi⟩
    rw [ho]
    exact fun e => h0 (List.append_eq_nil_iff.mp e).1

/-- C99: after such an option the file of the results is not refused but becomes one more argument of the option, and the default file is used. -/
theorem C99_swallowed_output {P : Parser} (hP : Sane P) {isInt : Text → Bool} {gs : List Group} {l : List Text} (hw : Written P gs l) (hf : ∀ g ∈ gs, Fits isInt g) {o : Opt} {s : Text} (hs : Names P s o) (ho : o.nargs = .plus)
    {args ws : List Text} (h0 : args ≠ []) (hv : ∀ v ∈ args ++ ws, Value v) (hi : o.int = true → ∀ v ∈ args ++ ws, isInt v = true) (hr : ∀ o' ∈ P.opts, o'.required = true → o' = o ∨ ∃ g ∈ gs, g.opt = o')
    {vs : List Text} (hvs : ∀ v ∈ vs, Value v) (h1 : vs.length = must P) : ∃ ns, parse P isInt (vs ++ (l ++ s :: (args ++ ws))) = .ok ns ∧ ns.lookup o.dest = some (args ++ ws) ∧ ∀ p ∈ P.pos, p.may = true → ns.lookup p.dest = none := by
  have hw' : Written P (gs ++ [⟨o, args ++ ws⟩]) (l ++ (s :: (args ++ ws) ++ [])) := written_append hw (.cons (.apart hs hv) .nil)
  rw [List.append_nil] at hw'
  have hf' : ∀ g ∈ gs ++ [⟨o, args ++ ws⟩], Fits isInt g := by
    intro g hg
    rcases List.mem_append.mp hg with hg | hg
    · exact hf g hg
    · rw [List.mem_singleton.mp hg]
      refine ⟨?_, hi⟩
      rw [ho]
      exact fun e => h0 (List.append_eq_nil_iff.mp e).1
  have hle : must P ≤ P.pos.length := mustCount_le P.pos
  obtain ⟨ns, hp, hm⟩ := C99_before hP hw' hf' (fun o' h' hq => by
    rcases hr o' h' hq with rfl | ⟨g, hg, e⟩
    · exact ⟨⟨o', args ++ ws⟩, by simp, rfl⟩
    · exact ⟨g, List.mem_append_left _ hg, e⟩) hvs (by omega) (by omega)
  refine ⟨ns, hp, ?_, ?_⟩
  · rw [hm.opt o hs.1, List.filter_append, List.filter_cons_of_pos (by simp), List.filter_nil, List.getLast?_append]
    rfl
  · intro p hpp hmay
    obtain ⟨i, hi⟩ := List.mem_iff_getElem?.mp hpp
    have : vs[i]? = none := by
      rw [List.getElem?_eq_none_iff]
      by_contra hlt
      have hlt : i < mustCount P.pos := by have := h1; unfold must at this; unfold mustCount; omega
      have e := mustCount_take (sane_sorted hP) (n := i + 1) (by omega)
      obtain ⟨hil, hie⟩ := List.getElem?_eq_some_iff.mp hi
      rw [List.take_succ_eq_append_getElem hil, mustCount_append, mustCount_take (sane_sorted hP) (by omega), mustCount_cons, hie, hmay] at e
      simp [mustCount] at e
    rw [hm.pos i p hi, this]
    rfl

/-! ### the programs -/

theorem sane_task : Sane taskParser := ⟨by decide +kernel, by decide +kernel, by decide +kernel, [⟨"database".toList, false⟩], [⟨"output".toList, true⟩], rfl, by simp, by simp, by simp⟩
theorem sane_distance : Sane distanceParser := ⟨by decide +kernel, by decide +kernel, by decide +kernel, distanceParser.pos, [], rfl, by simp [distanceParser], by simp [distanceParser], by simp⟩
theorem sane_score : Sane scoreParser := ⟨by decide +kernel, by decide +kernel, by decide +kernel, [⟨"task".toList, false⟩, ⟨"distance".toList, false⟩], [⟨"score".toList, true⟩], rfl, by simp, by simp, by simp⟩
theorem sane_analyze : Sane analyzeParser := ⟨by decide +kernel, by decide +kernel, by decide +kernel, analyzeParser.pos, [], rfl, by simp [analyzeParser], by simp [analyzeParser], by simp⟩
theorem sane_verify : Sane verifyParser := ⟨by decide +kernel, by decide +kernel, by decide +kernel, verifyParser.pos, [], rfl, by simp [verifyParser], by simp [verifyParser], by simp⟩
theorem sane_convert : Sane convertParser := ⟨by decide +kernel, by decide +kernel, by decide +kernel, convertParser.pos, [], rfl, by simp [convertParser], by simp [convertParser], by simp⟩
theorem sane_run : Sane runParser := ⟨by decide +kernel, by decide +kernel, by decide +kernel, runParser.pos, [], rfl, by simp [runParser], by simp [runParser], by simp⟩

end ABX.Argparse
