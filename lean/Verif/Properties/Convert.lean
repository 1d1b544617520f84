import Verif.Model.Convert
import Verif.Proofs.Splitext
import Mathlib.Tactic.Linarith
/-!
Property C57: conversion of files to h5features in batches.
-/
namespace ABX.Convert
open Database (Text splitext)
variable {α σ : Type}

namespace Spec
/-- `bs` cuts `l` in batches of k, the last one may be shorter -/
structure Batches (k : Nat) (bs : List (List β)) (l : List β) : Prop where
  all : bs.flatten = l
  size : ∀ b ∈ bs, b ≠ [] ∧ b.length ≤ k
  full : ∀ b ∈ bs.dropLast, b.length = k

/-- the writes of some batches, up to the first error -/
def writes (w : σ → List β → Except Err σ) : σ → List (List β) → Res σ
  | s, [] => (s, none)
  | s, b :: bs => match w s b with
    | .error e => (s, some e)
    | .ok s' => writes w s' bs

/-- then an error, if there was none -/
def thenFail (r : Res σ) (e : Err) : Res σ :=
  match r.2 with
  | none => (r.1, some e)
  | some _ => r
end Spec
open Spec

theorem loop_batches {load : Text → Except Err (Data α)} {path : Text} {k : Nat} (hk : 1 ≤ k) {g : Text → Rec α} :
    ∀ (fs : List Text) (buf : List (Rec α)), (∀ f ∈ fs, read load path f = .ok (g f)) → buf.length ≤ k →
      ∃ bs, Batches k bs (buf ++ fs.map g) ∧ ∀ (σ : Type) (w : σ → List (Rec α) → Except Err σ) (s : σ),
        loop w load path k (buf.length : Int) buf s fs = writes w s bs
  | [], buf, _, hb => by
    by_cases h : buf = []
    · exact ⟨[], ⟨by simp [h], by simp, by simp⟩, fun σ w s => by simp [loop, h, writes]⟩
    · refine ⟨[buf], ⟨by simp, by simp [h, hb], by simp⟩, fun σ w s => ?_⟩
      simp only [loop, h, if_false, writes]
      cases w s buf <;> rfl
  | f :: fs, buf, hg, hb => by
    have hf := hg f (by simp)
    by_cases h : buf.length = k
    · obtain ⟨bs, hB, hw⟩ := loop_batches hk fs [g f] (fun f hf => hg f (by simp [hf])) (by simpa using hk)
      have hne : bs ≠ [] := by
        rintro rfl
        have := hB.all
        simp at this
      refine ⟨buf :: bs, ⟨by simp [hB.all], ?_, ?_⟩, fun σ w s => ?_⟩
      · intro b hbm
        rcases List.mem_cons.mp hbm with rfl | hbm
        · exact ⟨fun h0 => by rw [h0] at h; simp at h; omega, hb⟩
        · exact hB.size b hbm
      · intro b hbm
        rw [List.dropLast_cons_of_ne_nil hne] at hbm
        rcases List.mem_cons.mp hbm with rfl | hbm
        · exact h
        · exact hB.full b hbm
      · have hc : (buf.length : Int) = (k : Int) := by exact_mod_cast h
        simp only [loop, hc, if_true, writes, hf]
        cases w s buf with
        | error e => rfl
        | ok s' => exact hw σ w s'
    · obtain ⟨bs, hB, hw⟩ := loop_batches hk fs (buf ++ [g f]) (fun f hf => hg f (by simp [hf])) (by simp; omega)
      refine ⟨bs, ⟨by rw [hB.all]; simp, hB.size, hB.full⟩, fun σ w s => ?_⟩
      have hc : (buf.length : Int) ≠ (k : Int) := by exact_mod_cast h
      simp only [loop, if_neg hc, hf]
      have := hw σ w s
      simpa using this

/-- C57: with a batch size of at least one, the files, if all can be read, are passed to the writer exactly once, in order, in batches of the
given size (the last one may be shorter, none is empty), whatever the writer does; a writer that raises ends the conversion. -/
theorem C57_batches {load : Text → Except Err (Data α)} {path : Text} {k : Nat} (hk : 1 ≤ k) {g : Text → Rec α} {files : List Text}
    (hg : ∀ f ∈ files, read load path f = .ok (g f)) :
    ∃ bs, Batches k bs (files.map g) ∧ ∀ (σ : Type) (w : σ → List (Rec α) → Except Err σ) (s : σ), anyToH5 w load path files k s = writes w s bs := by
  obtain ⟨bs, hB, hw⟩ := loop_batches hk files [] hg (by simp)
  exact ⟨bs, by simpa using hB, fun σ w s => by simpa [anyToH5] using hw σ w s⟩

/-- C57, what is recorded for a file: its name without extension, `data['time']` and `data['features']` -/
theorem C57_record {load : Text → Except Err (Data α)} {path f : Text} {r : Rec α} :
    read load path f = .ok r ↔ ∃ d, load (joinPath path f) = .ok d ∧ d "time" = some r.2.1 ∧ d "features" = some r.2.2 ∧ r.1 = (splitext f).1 := by
  unfold read
  obtain ⟨n, t, x⟩ := r
  cases load (joinPath path f) with
  | error e => simp
  | ok d =>
    cases hx : d "features" with
    | none => simp [hx]
    | some x' =>
      cases ht : d "time" with
      | none => simp [hx, ht]
      | some t' =>
        simp only [Except.ok.injEq, Prod.mk.injEq, exists_eq_left', hx, ht, Option.some.injEq]
        constructor
        · rintro ⟨rfl, rfl, rfl⟩; exact ⟨rfl, rfl, rfl⟩
        · rintro ⟨rfl, rfl, rfl⟩; exact ⟨rfl, rfl, rfl⟩

theorem loop_failed {load : Text → Except Err (Data α)} {path : Text} {k : Nat} (hk : 1 ≤ k) {g : Text → Rec α} {f : Text} {e : Err} (hf : read load path f = .error e)
    (post : List Text) : ∀ (pre : List Text) (buf : List (Rec α)), (∀ f ∈ pre, read load path f = .ok (g f)) → buf.length ≤ k →
      ∃ bs, bs.flatten <+: buf ++ pre.map g ∧ (buf ++ pre.map g).length < bs.flatten.length + k ∧ (∀ b ∈ bs, b.length = k) ∧
        ∀ (σ : Type) (w : σ → List (Rec α) → Except Err σ) (s : σ), loop w load path k (buf.length : Int) buf s (pre ++ f :: post) = thenFail (writes w s bs) e
  | [], buf, _, hb => by
    by_cases h : buf.length = k
    · refine ⟨[buf], by simp, by simp; omega, by simp [h], fun σ w s => ?_⟩
      have hc : (buf.length : Int) = (k : Int) := by exact_mod_cast h
      simp only [List.nil_append, loop, hc, if_true, writes, hf]
      cases w s buf <;> rfl
    · refine ⟨[], by simp, by simp; omega, by simp, fun σ w s => ?_⟩
      have hc : (buf.length : Int) ≠ (k : Int) := by exact_mod_cast h
      simp only [List.nil_append, loop, if_neg hc, hf]
      rfl
  | p :: pre, buf, hg, hb => by
    have hp := hg p (by simp)
    by_cases h : buf.length = k
    · obtain ⟨bs, h1, h2, h3, hw⟩ := loop_failed hk hf post pre [g p] (fun f hf => hg f (by simp [hf])) (by simpa using hk)
      refine ⟨buf :: bs, ?_, ?_, ?_, fun σ w s => ?_⟩
      · simpa using h1
      · simp only [List.flatten_cons, List.length_append, List.map_cons, List.length_cons, List.length_nil, List.length_map] at h2 ⊢
        omega
      · intro b hbm
        rcases List.mem_cons.mp hbm with rfl | hbm
        · exact h
        · exact h3 b hbm
      · have hc : (buf.length : Int) = (k : Int) := by exact_mod_cast h
        simp only [List.cons_append, loop, hc, if_true, writes, hp]
        cases w s buf with
        | error e => rfl
        | ok s' => exact hw σ w s'
    · obtain ⟨bs, h1, h2, h3, hw⟩ := loop_failed hk hf post pre (buf ++ [g p]) (fun f hf => hg f (by simp [hf])) (by simp; omega)
      refine ⟨bs, by simpa using h1, ?_, h3, fun σ w s => ?_⟩
      · simpa using h2
      · have hc : (buf.length : Int) ≠ (k : Int) := by exact_mod_cast h
        simp only [List.cons_append, loop, if_neg hc, hp]
        simpa using hw σ w s

/-- C57, a file that cannot be read: the error of the first such file is raised once the full batches before it are written; fewer than
a batch of the files before it are lost. -/
theorem C57_failed {load : Text → Except Err (Data α)} {path : Text} {k : Nat} (hk : 1 ≤ k) {g : Text → Rec α} {pre post : List Text} {f : Text} {e : Err}
    (hg : ∀ f ∈ pre, read load path f = .ok (g f)) (hf : read load path f = .error e) :
    ∃ bs, bs.flatten <+: pre.map g ∧ pre.length < bs.flatten.length + k ∧ (∀ b ∈ bs, b.length = k) ∧
      ∀ (σ : Type) (w : σ → List (Rec α) → Except Err σ) (s : σ), anyToH5 w load path (pre ++ f :: post) k s = thenFail (writes w s bs) e := by
  obtain ⟨bs, h1, h2, h3, hw⟩ := loop_failed hk hf post pre [] hg (by simp)
  exact ⟨bs, by simpa using h1, by simpa using h2, h3, fun σ w s => by simpa [anyToH5] using hw σ w s⟩

theorem loop_once {load : Text → Except Err (Data α)} {path : Text} {k : Int} {g : Text → Rec α} (w : σ → List (Rec α) → Except Err σ) (s : σ) :
    ∀ (fs : List Text) (i : Int) (buf : List (Rec α)), (∀ f ∈ fs, read load path f = .ok (g f)) → k < i → buf ≠ [] →
      loop w load path k i buf s fs = writes w s [buf ++ fs.map g]
  | [], i, buf, _, _, hb => by
    simp only [loop, hb, if_false, writes, List.map_nil, List.append_nil]
    cases w s buf <;> rfl
  | f :: fs, i, buf, hg, hi, hb => by
    simp only [loop, if_neg (show ¬ i = k by omega), hg f (by simp)]
    rw [loop_once w s fs (i + 1) (buf ++ [g f]) (fun f hf => hg f (by simp [hf])) (by omega) (by simp)]
    simp

/-- C57, batch sizes that are not positive: all files are written at once, for batch size 0 after the write of an empty batch -/
theorem C57_nonpositive {load : Text → Except Err (Data α)} {path : Text} {k : Int} (hk : k ≤ 0) {g : Text → Rec α} {f : Text} {files : List Text}
    (hg : ∀ f' ∈ f :: files, read load path f' = .ok (g f')) (w : σ → List (Rec α) → Except Err σ) (s : σ) :
    anyToH5 w load path (f :: files) k s = writes w s (if k = 0 then [[], (f :: files).map g] else [(f :: files).map g]) := by
  unfold anyToH5
  by_cases h : k = 0
  · subst h
    simp only [loop, if_true, hg f (by simp), writes]
    cases w s [] with
    | error e => rfl
    | ok s' => exact loop_once w s' files 1 [g f] (fun f hf => hg f (by simp [hf])) (by omega) (by simp)
  · simp only [loop, if_neg (show ¬ (0 : Int) = k by omega), if_neg h, hg f (by simp)]
    exact loop_once w s files _ _ (fun f hf => hg f (by simp [hf])) (by omega) (by simp)

theorem writes_append [DecidableEq α] : ∀ (bs : List (List (Rec α))) (s : List (Rec α)), (s.map (·.1)).Nodup →
    (((writes append s bs).2 = none ↔ ((s ++ bs.flatten).map (·.1)).Nodup) ∧ ((writes append s bs).2 = none → (writes append s bs).1 = s ++ bs.flatten) ∧
      (∀ e, (writes append s bs).2 = some e → e = .ioError) ∧ ∃ n, (writes append s bs).1 = s ++ (bs.take n).flatten)
  | [], s, hs => by simp [writes, hs]
  | b :: bs, s, hs => by
    by_cases h : (b.map (·.1)).Nodup ∧ ∀ r ∈ b, r.1 ∉ s.map (·.1)
    · have hs' : ((s ++ b).map (·.1)).Nodup := by
        rw [List.map_append, List.nodup_append]
        refine ⟨hs, h.1, ?_⟩
        intro x hx y hy hxy
        obtain ⟨r, hr, rfl⟩ := List.mem_map.mp hy
        exact h.2 r hr (hxy ▸ hx)
      obtain ⟨i1, i2, i3, n, i4⟩ := writes_append bs (s ++ b) hs'
      have hw : writes append s (b :: bs) = writes append (s ++ b) bs := by
        simp only [writes, append]
        rw [if_pos h]
      rw [hw]
      refine ⟨by simpa using i1, by simpa using i2, i3, n + 1, by simpa using i4⟩
    · have hw : writes append s (b :: bs) = (s, some .ioError) := by
        simp only [writes, append]
        rw [if_neg h]
      rw [hw]
      refine ⟨?_, by simp, by simp, 0, by simp⟩
      simp only [reduceCtorEq, false_iff]
      intro hN
      apply h
      rw [List.flatten_cons, ← List.append_assoc, List.map_append, List.map_append] at hN
      have h1 := (List.nodup_append.mp hN).1
      obtain ⟨-, h2, h3⟩ := List.nodup_append.mp h1
      exact ⟨h2, fun r hr hm => h3 _ hm _ (List.mem_map_of_mem hr) rfl⟩

/-- C57, the name without extension: `root.e` gives `root` when `e` has no dot and no slash and the last component of `root` is not made of dots
only; a name that cannot be cut like this is kept whole. -/
theorem C57_splitext (f : Text) :
    (∀ root e, Database.Spec.IsExt root e → f = root ++ '.' :: e → (splitext f).1 = root) ∧
    ((∀ root e, Database.Spec.IsExt root e → f ≠ root ++ '.' :: e) → (splitext f).1 = f) :=
  ⟨fun root e h hf => by rw [hf, Database.splitext_ext h], fun h => by rw [Database.splitext_none h]⟩

/-- both cases occur -/
example : (splitext "a.b/c.d.npz".toList).1 = "a.b/c.d".toList ∧ (splitext "a.b/..npz".toList).1 = "a.b/..npz".toList ∧ (splitext "a.b/c".toList).1 = "a.b/c".toList := by decide +kernel

/-- C57 with the names that h5features refuses: the conversion succeeds exactly when the names without extension are distinct and not in the
output already; then all files are appended in order.  Otherwise it raises `IOError`, and the output has some of the first batches. -/
theorem C57_names [DecidableEq α] {load : Text → Except Err (Data α)} {path : Text} {k : Nat} (hk : 1 ≤ k) {g : Text → Rec α} {files : List Text}
    (hg : ∀ f ∈ files, read load path f = .ok (g f)) {s : List (Rec α)} (hs : (s.map (·.1)).Nodup) :
    ((anyToH5 append load path files k s).2 = none ↔ (s.map (·.1) ++ files.map (fun f => (splitext f).1)).Nodup) ∧
    ((anyToH5 append load path files k s).2 = none → (anyToH5 append load path files k s).1 = s ++ files.map g) ∧
    (∀ e, (anyToH5 append load path files k s).2 = some e → e = .ioError ∧ ∃ l, l <+: files.map g ∧ (anyToH5 append load path files k s).1 = s ++ l) := by
  obtain ⟨bs, hB, hw⟩ := C57_batches hk hg
  rw [hw _ append s]
  obtain ⟨i1, i2, i3, n, i4⟩ := writes_append bs s hs
  rw [hB.all] at i1 i2
  have hnames : (files.map g).map (·.1) = files.map (fun f => (splitext f).1) := by
    rw [List.map_map]
    apply List.map_congr_left
    intro f hf
    obtain ⟨-, -, -, -, h⟩ := C57_record.mp (hg f hf)
    exact h
  refine ⟨?_, i2, fun e he => ⟨i3 e he, (bs.take n).flatten, ?_, i4⟩⟩
  · rw [i1, List.map_append, hnames]
  · rw [← hB.all]
    conv_rhs => rw [← List.take_append_drop n bs]
    rw [List.flatten_append]
    exact List.prefix_append _ _

/-- C57 is violated for files that follow the documentation of the module (arrays 'times' and 'features'): the first file raises `KeyError` and
nothing is written, whatever the files and the batch size (other than 0). -/
theorem C57_documented_violated (w : σ → List (Rec α) → Except Err σ) {load : Text → Except Err (Data α)} {path f : Text} {files : List Text} {k : Int} (hk : k ≠ 0) {d : Data α}
    (hd : load (joinPath path f) = .ok d) (hdoc : ∀ n, (d n).isSome ↔ n = "times" ∨ n = "features") (s : σ) :
    anyToH5 w load path (f :: files) k s = (s, some .keyError) := by
  have hr : read load path f = .error .keyError := by
    unfold read
    rw [hd]
    simp only
    obtain ⟨x, hx⟩ := Option.isSome_iff_exists.mp ((hdoc "features").mpr (Or.inr rfl))
    have ht : d "time" = none := by
      cases h : d "time" with
      | none => rfl
      | some t => exact absurd ((hdoc "time").mp (by rw [h]; rfl)) (by decide)
    rw [hx, ht]
  unfold anyToH5
  simp only [loop, if_neg (Ne.symm hk), hr]

/-- the data of an example: a number for each file -/
def exLoad (f : Text) : Except Err (Data Nat) := .ok (fun n => if n = "time" then some f.length else if n = "features" then some 0 else none)

/-- example: five files in batches of two -/
example : anyToH5 trace exLoad "d".toList ["a.npz".toList, "b.npz".toList, "cc.npz".toList, "d.npz".toList, "e".toList] 2 [] =
    ([[("a".toList, 7, 0), ("b".toList, 7, 0)], [("cc".toList, 8, 0), ("d".toList, 7, 0)], [("e".toList, 3, 0)]], none) := by decide +kernel

/-- example: two files with the same name up to the extension, in different batches -/
example : anyToH5 append exLoad "d".toList ["a.npz".toList, "a.npy".toList] 1 [] = ([("a".toList, 7, 0)], some .ioError) := by decide +kernel

#print axioms C57_batches
#print axioms C57_record
#print axioms C57_failed
#print axioms C57_nonpositive
/-- C57: the file that is read: an absolute name is used as it is, another one is looked for in the folder, with one slash between them -/
theorem C57_path (path f : Text) : joinPath path ('/' :: f) = '/' :: f ∧ joinPath [] f = f ∧
    (∀ c f', f = c :: f' → c ≠ '/' → path ≠ [] → (∀ p, path = p ++ ['/'] → joinPath path f = path ++ f) ∧ ((∀ p, path ≠ p ++ ['/']) → joinPath path f = path ++ ['/'] ++ f)) := by
  refine ⟨rfl, ?_, ?_⟩
  · unfold joinPath
    split <;> rfl
  · rintro c f' rfl hc hp
    have h0 : joinPath path (c :: f') = match path.getLast? with | none => c :: f' | some '/' => path ++ c :: f' | some _ => path ++ '/' :: c :: f' := by
      unfold joinPath
      split
      · rename_i h; simp only [List.head?_cons, Option.some.injEq] at h; exact absurd h hc
      · rfl
    rw [h0]
    constructor
    · rintro p rfl
      simp
    · intro h
      split
      · rename_i hn; exact absurd (List.getLast?_eq_none_iff.mp hn) hp
      · rename_i hn
        obtain ⟨p, e⟩ := List.getLast?_eq_some_iff.mp hn
        exact absurd e (h p)
      · simp
example : joinPath "dir".toList "f.npz".toList = "dir/f.npz".toList ∧ joinPath "dir/".toList "f.npz".toList = "dir/f.npz".toList ∧ joinPath "dir".toList "/f.npz".toList = "/f.npz".toList := by decide

#print axioms C57_path
#print axioms C57_splitext
#print axioms C57_names
#print axioms C57_documented_violated

end ABX.Convert

#print axioms ABX.Convert.C57_batches
#print axioms ABX.Convert.C57_record
#print axioms ABX.Convert.C57_failed
#print axioms ABX.Convert.C57_nonpositive
#print axioms ABX.Convert.C57_names
#print axioms ABX.Convert.C57_documented_violated
