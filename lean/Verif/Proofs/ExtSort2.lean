import Verif.Proofs.ExtSort
namespace ABX.ExtSort
open H52NP NP2H5

theorem chunkLoop_ok (bufRows n : Nat) (hb : 0 < bufRows) (fuel : Nat) : ∀ row, row ≤ n → n - row < fuel →
    ∃ ivs, chunkLoop fuel bufRows n row = .ok ivs ∧
      (∀ {α : Type} (l : List α), l.length = n → (ivs.map (fun iv => npSlice l iv.1 iv.2)).flatten = l.drop row) ∧
      (row < n → ivs ≠ []) ∧
      ivs.length * bufRows < n - row + bufRows := by
  induction fuel with
  | zero => intro row _ h; omega
  | succ k ih =>
    intro row h1 h2
    unfold chunkLoop
    by_cases hc : row + bufRows ≤ n
    · rw [if_pos hc]
      obtain ⟨ivs, e1, e2, e3, e4⟩ := ih (row + bufRows) hc (by omega)
      simp only [e1]
      refine ⟨_, rfl, ?_, by simp, ?_⟩
      · intro α l hl
        simp only [List.map_cons, List.flatten_cons, e2 l hl]
        have := npSlice_append l row (row + bufRows) n (by omega) hc
        rw [show l.drop (row + bufRows) = npSlice l (row + bufRows) n by simp [npSlice, ← hl],
          this]
        simp [npSlice, ← hl]
      · simp only [List.length_cons, Nat.add_mul, Nat.one_mul]; omega
    · rw [if_neg hc]
      by_cases hr : row < n
      · rw [if_pos hr]
        refine ⟨_, rfl, ?_, by simp, ?_⟩
        · intro α l hl
          simp [npSlice, ← hl]
        · simp; omega
      · rw [if_neg hr]
        refine ⟨_, rfl, ?_, fun h => absurd h hr, ?_⟩
        · intro α l hl
          simp; omega
        · simp; omega

theorem sequence_cons_ok {x : α} {l : List (Except Err α)} {ys : List α} (h : sequence l = .ok ys) :
    sequence (.ok x :: l) = .ok (x :: ys) := by simp [sequence, h]

/-- the sorted chunks, tagged -/
theorem extract_tagged {argsort : List Int → List Nat} (hs : ArgsortLaw argsort) (key : α → Int) (all : List α) :
    ∀ (ivs : List (Nat × Nat)), ∃ tch : List (List α),
      (∀ {β : Type} (f : α → β), extractAll (chunkOrders argsort (all.map key) ivs) ivs (all.map f) =
        .ok (tch.map (List.map f))) ∧
      (∀ c ∈ tch, c.Pairwise (fun x y => key x ≤ key y)) ∧
      tch.flatten.Perm (ivs.map (fun iv => npSlice all iv.1 iv.2)).flatten ∧ tch.length = ivs.length
  | [] => ⟨[], by intro β f; simp [extractAll, chunkOrders, sequence], by simp, by simp, rfl⟩
  | iv :: ivs => by
    obtain ⟨tch, e1, e2, e3, e4⟩ := extract_tagged hs key all ivs
    obtain ⟨r, g1, g2, g3⟩ := argsort_tagged hs key (npSlice all iv.1 iv.2)
    refine ⟨r :: tch, ?_, ?_, ?_, by simp [e4]⟩
    · intro β f
      have := e1 f
      unfold extractAll chunkOrders at this ⊢
      simp only [List.map_cons, List.zip_cons_cons, extractOne]
      rw [npSlice_map, npSlice_map, gather_map, g1]
      exact sequence_cons_ok this
    · intro c hc
      rcases List.mem_cons.mp hc with rfl | hc
      · exact g3
      · exact e2 c hc
    · simp only [List.flatten_cons, List.map_cons]
      exact List.Perm.append g2 e3

theorem open_tagged (pol : Policy) (hp : ∀ L, 0 < L → pol L L = true) (zero : α) (n : Nat) (hn : 0 < n) :
    ∀ (tch : List (List α)), ∃ tb : List (RBuf α),
      (∀ {β : Type} (f : α → β), openAll (f zero) pol n (tch.map (List.map f)) = .ok (tb.map (RBuf.map f))) ∧
      (∀ b ∈ tb, RInv b) ∧ tb.map RBuf.remaining = tch
  | [] => ⟨[], by intro β f; simp [openAll, sequence], by simp, rfl⟩
  | c :: cs => by
    obtain ⟨tb, e1, e2, e3⟩ := open_tagged pol hp zero n hn cs
    obtain ⟨b, f1, f2, f3⟩ := H52NP.create_inv zero pol hp c 0 c.length n (by omega) (by omega) hn
    refine ⟨b :: tb, ?_, ?_, ?_⟩
    · intro β f
      have := e1 f
      unfold openAll at this ⊢
      simp only [List.map_cons]
      rw [List.length_map, create_map, f1]
      exact sequence_cons_ok this
    · intro x hx
      rcases List.mem_cons.mp hx with rfl | hx
      · exact f2
      · exact e2 x hx
    · simp only [List.map_cons, e3, f3]
      simp [npSlice]

theorem create_overwrite (zero : α) (name : String) (d : List α) (bufLen : Nat) (hb : 0 < bufLen)
    (hd : 0 < d.length) :
    ∃ b, Buf.create zero name (some d) d.length bufLen true true = .ok b ∧ b.fixed = true ∧
      NP2H5.Inv zero d b [] := by
  unfold Buf.create
  rw [if_neg (by omega), if_neg (by simp)]
  refine ⟨_, by simp; rfl, rfl, ?_⟩
  refine ⟨hb, by simp, hb, ⟨[], rfl, by simp, by simp⟩, by simp, by simp only; omega, fun _ => by simp, fun h => by simp at h⟩

theorem createOut_ok (zero : γ) (n bufLen : Nat) (hb : 0 < bufLen) (hn : 0 < n) :
    ∀ (comps : List (List γ)) (fs : List (α → γ)), (∀ c ∈ comps, c.length = n) → fs.length = comps.length →
    ∃ os, sequence (comps.map (fun c => Buf.create zero "data" (some c) n bufLen true true)) = .ok os ∧
      COut zero ([] : List α) fs comps os
  | [], [], _, _ => ⟨[], rfl, trivial⟩
  | [], f :: fs, _, h => by simp at h
  | c :: cs, [], _, h => by simp at h
  | c :: cs, f :: fs, h1, h2 => by
    obtain ⟨os, e1, e2⟩ := createOut_ok zero n bufLen hb hn cs fs (fun x hx => h1 x (by simp [hx])) (by simpa using h2)
    have hc := h1 c (by simp)
    obtain ⟨b, f1, f2, f3⟩ := create_overwrite zero "data" c bufLen hb (by omega)
    rw [hc] at f1
    refine ⟨b :: os, ?_, ⟨⟨by simpa using f3, f2⟩, e2⟩⟩
    simp only [List.map_cons, f1]
    exact sequence_cons_ok e1

theorem exit_one (zero : α) (d0 : List α) (b : Buf α) (w : List α) (h : NP2H5.Inv zero d0 b w)
    (hf : b.fixed = true) (hl : w.length = d0.length) :
    ∃ b', b.flush zero = .ok b' ∧ b'.isComplete = true ∧ b'.data = w := by
  obtain ⟨b', g1, g2, g3, g4⟩ := NP2H5.flush_inv zero d0 b w h
  obtain ⟨k1, k2⟩ := g4.flushed g3
  refine ⟨b', g1, ?_, ?_⟩
  · have h1 := g4.rows1; have h2 := g4.rows2
    simp [Buf.isComplete, g2, hf]; omega
  · rw [k1, hl]; simp

theorem COut_exit (zero : γ) (F : List α) : ∀ (fs : List (α → γ)) (ds : List (List γ)) (os : List (Buf γ)),
    COut zero F fs ds os → (∀ d ∈ ds, d.length = F.length) →
    ∃ os', flushAll zero os = .ok os' ∧ os'.all Buf.isComplete = true ∧
      os'.map Buf.data = fs.map (fun f => F.map f)
  | [], [], [], _, _ => ⟨[], rfl, rfl, rfl⟩
  | f :: fs, d :: ds, o :: os, h, hd => by
    obtain ⟨⟨h1, h2⟩, h3⟩ := h
    obtain ⟨os', e1, e2, e3⟩ := COut_exit zero F fs ds os h3 (fun x hx => hd x (by simp [hx]))
    obtain ⟨o', f1, f2, f3⟩ := exit_one zero d o (F.map f) h1 h2 (by rw [hd d (by simp)]; simp)
    exact ⟨o' :: os', by simp [flushAll, f1, e1], by simp [f2, e2], by simp [f3, e3]⟩

/-- value of a tag in a dataset -/
def look (zero : α) (l : List α) : Option Nat → α
  | none => zero
  | some i => (l[i]?).getD zero

theorem look_all (zero : α) (l : List α) : ((List.range l.length).map some).map (look zero l) = l := by
  rw [List.map_map]
  apply List.ext_getElem
  · simp
  · intro i h1 h2
    simp at h1
    simp [look, h1]

theorem perm_map_some {F : List (Option Nat)} {n : Nat} (h : F.Perm ((List.range n).map some)) :
    ∃ σ : List Nat, σ.Perm (List.range n) ∧ F = σ.map some := by
  refine ⟨F.filterMap id, ?_, ?_⟩
  · have := h.filterMap id
    simpa [List.filterMap_map] using this
  · have hall : ∀ x ∈ F, ∃ i, x = some i := by
      intro x hx
      have := h.mem_iff.mp hx
      simp at this
      obtain ⟨i, _, rfl⟩ := this
      exact ⟨i, rfl⟩
    clear h
    induction F with
    | nil => rfl
    | cons x xs ih =>
      obtain ⟨i, rfl⟩ := hall x (by simp)
      simp only [List.filterMap_cons, id, List.map_cons]
      congr 1
      exact ih (fun y hy => hall y (by simp [hy]))

theorem map_look (zero : α) (l : List α) (σ : List Nat) (h : ∀ i ∈ σ, i < l.length) :
    (σ.map some).map (look zero l) = σ.filterMap (fun i => l[i]?) := by
  induction σ with
  | nil => rfl
  | cons i is ih =>
    have hi := h i (by simp)
    simp only [List.map_cons, List.filterMap_cons, List.getElem?_eq_getElem hi, look, Option.getD_some]
    congr 1
    exact ih (fun j hj => h j (by simp [hj]))

theorem sort_correct {argsort : List Int → List Nat} (hs : ArgsortLaw argsort) (zero : γ) (pol : Policy)
    (hp : ∀ L, 0 < L → pol L L = true) (bufRows oBufRows : Nat) (keys : List Int) (comps : List (List γ))
    (hc : ∀ c ∈ comps, c.length = keys.length) (hn : 0 < keys.length) (hb : 0 < bufRows) (ho : 0 < oBufRows)
    (hi : ∀ ivs, chunkLoop (keys.length + 1) bufRows keys.length 0 = .ok ivs → 0 < roundDiv bufRows ivs.length) :
    ∃ σ : List Nat, σ.Perm (List.range keys.length) ∧
      sort argsort zero pol bufRows oBufRows (keys.length + 1) keys comps =
        .ok (σ.filterMap (fun i => keys[i]?), comps.map (fun c => σ.filterMap (fun i => c[i]?))) ∧
      (σ.filterMap (fun i => keys[i]?)).Pairwise (· ≤ ·) := by
  obtain ⟨ivs, c1, c2, c3, _⟩ := chunkLoop_ok bufRows keys.length hb (keys.length + 1) 0 (by omega) (by omega)
  have hi' := hi ivs c1
  have hivs : ivs ≠ [] := c3 hn
  have hivl : ¬ ivs.length = 0 := by simpa using hivs
  generalize hall : (List.range keys.length).map some = all
  have hk : all.map (look 0 keys) = keys := by rw [← hall]; exact look_all 0 keys
  have hcm : ∀ c ∈ comps, all.map (look zero c) = c := by
    intro c hcc; rw [← hall, ← hc c hcc]; exact look_all zero c
  have hlen : all.length = keys.length := by rw [← hall]; simp
  obtain ⟨tch, x1, x2, x3, x4⟩ := extract_tagged hs (look 0 keys) all ivs
  rw [hk] at x1
  obtain ⟨tb, o1, o2, o3⟩ := open_tagged pol hp (none : Option Nat) (roundDiv bufRows ivs.length) hi' tch
  obtain ⟨ko, k1, k2, k3⟩ := create_overwrite 0 "key" keys oBufRows ho hn
  obtain ⟨os, q1, q2⟩ := createOut_ok (α := Option Nat) zero keys.length oBufRows ho hn comps
    (comps.map (look zero)) hc (by simp)
  have init : MInv (look 0 keys) zero (comps.map (look zero)) keys comps all tb []
      { kin := tb.map (RBuf.map (look 0 keys)), cin := (comps.map (look zero)).map (fun f => tb.map (RBuf.map f)), kout := ko, cout := os } := by
    refine ⟨rfl, rfl, o2, ?_, ⟨by simpa using k3, k2⟩, q2, ⟨by rw [hlen], fun d hd => by rw [hlen]; exact hc d hd⟩,
      List.Pairwise.nil, by simp, ?_⟩
    · intro b hb
      have : b.remaining ∈ tch := by rw [← o3]; exact List.mem_map_of_mem hb
      exact x2 _ this
    · rw [o3, List.nil_append]
      have := c2 all hlen
      rw [List.drop_zero] at this
      rw [← this]; exact x3
  obtain ⟨s1, tb1, L1, l1, l2, l3⟩ := init.loop hs pol hp (keys.length + 1) (by simp [hlen])
  obtain ⟨s2, F, f1, f2, f3, f4, f5⟩ := l2.finish hs pol hp l3
  have hFl := f2.length_eq
  obtain ⟨kb, kb1, kb2, kb3⟩ := exit_one 0 keys s2.kout _ f4.1 f4.2 (by simp; omega)
  obtain ⟨os', z1, z2, z3⟩ := COut_exit zero F _ _ _ f5 (fun d hd => by rw [hc d hd]; omega)
  have f2' := f2
  rw [← hall] at f2'
  obtain ⟨σ, s1', s2'⟩ := perm_map_some f2'
  have hσ : ∀ i ∈ σ, i < keys.length := fun i hi => by simpa using s1'.mem_iff.mp hi
  have hkF : F.map (look 0 keys) = σ.filterMap (fun i => keys[i]?) := by
    rw [s2']; exact map_look 0 keys σ hσ
  have hcF : (comps.map (look zero)).map (fun f => F.map f) = comps.map (fun c => σ.filterMap (fun i => c[i]?)) := by
    rw [List.map_map]
    apply List.map_congr_left
    intro c hcc
    simp only [Function.comp]
    rw [s2']; exact map_look zero c σ (fun i hi => by rw [hc c hcc]; exact hσ i hi)
  refine ⟨σ, s1', ?_, ?_⟩
  · unfold sort
    have hany : comps.any (fun c => c.length != keys.length) = false := by
      rw [List.any_eq_false]; intro c hcc; simp [hc c hcc]
    simp only [hany, Bool.false_eq_true, if_false, c1]
    have xk := x1 (look 0 keys)
    rw [hk] at xk
    have xc : sequence (comps.map (extractAll (chunkOrders argsort keys ivs) ivs)) =
        .ok (comps.map (fun c => tch.map (List.map (look zero c)))) := by
      apply sequence_map_ok
      intro c hcc
      have := x1 (look zero c)
      rw [hcm c hcc] at this
      exact this
    simp only [xk, xc, hivl, if_false]
    rw [if_neg (by omega)]
    have ok := o1 (look 0 keys)
    have hl0 : look (0:Int) keys none = 0 := rfl
    rw [hl0] at ok
    have oc : sequence ((comps.map (fun c => tch.map (List.map (look zero c)))).map (openAll zero pol (roundDiv bufRows ivs.length))) =
        .ok ((comps.map (look zero)).map (fun f => tb.map (RBuf.map f))) := by
      rw [List.map_map, List.map_map]
      apply sequence_map_ok
      intro c hcc
      exact o1 (look zero c)
    simp only [ok, oc]
    rw [if_neg (by omega)]
    simp only [k1, q1, l1, f1]
    have e1 : exitOk 0 [s2.kout] = .ok [kb] := by simp [exitOk, flushAll, kb1, kb2]
    have e2 : exitOk zero s2.cout = .ok os' := by simp [exitOk, z1, z2]
    simp only [e1, e2, z3, hcF]
    simp [kb3, hkF]
  · rw [← hkF, List.pairwise_map]
    exact f3

end ABX.ExtSort
