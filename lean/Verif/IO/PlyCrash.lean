import Verif.IO.PlyRound
import Verif.IO.TrackCrash
/-
  Interrupted writing of a PLY file; property C287.

  The text reaches the file in pieces of any size; an interruption leaves a first part of it.  The code never asks the stream whether it failed.
-/
namespace Vital.IO.PlyCrash
open Vital Vital.Stream Vital.Sys Vital.IO

variable {ν : Type} {f : NumFmt ν} {good : ν → Prop} {rnd : ν → ν}

/-- The file system when `n` bytes of the text have reached the device, and what the caller gets if that is all the device takes. -/
-- models: vital/io/landmark_map_io.cxx:53-122 (write_ply_file; 108-121: no check of `ofile`)
def writeUntil (n : Nat) (f : NumFmt ν) (d : Parser.Disk) (w : World) (m : Option (List (Int × Landmark ν))) (path : Str) : World × Except Exc Unit :=
  match m with
  | none => (w, .error .fileWrite)
  | some l => if l.length = 0 then (w, .error .fileWrite) else writeText d w path ((plyText f l).take n)

theorem writeUntil_all (f : NumFmt ν) (d : Parser.Disk) (w : World) (l : List (Int × Landmark ν)) (path : Str) {n : Nat} (hn : (plyText f l).length ≤ n) :
    writeUntil n f d w (some l) path = writePlyFile f d w (some l) path := by
  unfold writeUntil writePlyFile
  simp only [List.take_of_length_le hn]

/-! ### Specification -/

/-- The lines before the first landmark. -/
def headerLines : Nat := 16

/-- The landmarks whose lines are complete among the first `n` bytes of the file. -/
def complete (f : NumFmt ν) (m : List (Int × Landmark ν)) (n : Nat) : List (Int × Landmark ν) := m.take (((plyText f m).take n).count '\n' - headerLines)

/-- `R` is `P` with at most one landmark put into it: a new one, or one in the place of another with the same id. -/
def OneMore {α : Type} (P R : List (Int × α)) : Prop :=
  R = P ∨ ∃ i a, (∃ l r, P = l ++ r ∧ R = l ++ (i, a) :: r ∧ ∀ e ∈ P, e.1 ≠ i) ∨ (∃ l b r, P = l ++ (i, b) :: r ∧ R = l ++ (i, a) :: r)

/-- Full property C287: the file of an interrupted write gives a first part of the landmarks. -/
def C287_statement (f : NumFmt ν) (good : ν → Prop) (rnd : ν → ν) : Prop := ∀ (k : Consts ν) (m : List (Int × Landmark ν)) (n : Nat),
  m.Pairwise (fun a b => a.1 < b.1) → (∀ e ∈ m, e.2.loc.All good ∧ e.2.normal.All good ∧ Int64 e.1) → m.length < 4294967295 →
  ∃ j, plyRead f k ((plyText f m).take n) = (m.take j).map (fun e => (e.1, readBack rnd k e.2))

/-! ### Proofs -/

theorem oneMore_put {α : Type} (i : Int) (a : α) : ∀ P : List (Int × α), P.Pairwise (fun a b => a.1 < b.1) → OneMore P (mapPut P i a) := by
  intro P hP
  refine .inr ⟨i, a, ?_⟩
  induction P with
  | nil => exact .inl ⟨[], [], rfl, rfl, by simp⟩
  | cons e P ih =>
    obtain ⟨h1, h2⟩ := List.pairwise_cons.1 hP
    unfold mapPut
    split
    · rename_i hlt
      rcases ih h2 with ⟨l, r, h3, h4, h5⟩ | ⟨l, b, r, h3, h4⟩
      · refine .inl ⟨e :: l, r, by rw [h3]; rfl, by rw [h4]; rfl, ?_⟩
        intro x hx
        rcases List.mem_cons.1 hx with rfl | hx
        · omega
        · exact h5 x hx
      · exact .inr ⟨e :: l, b, r, by rw [h3]; rfl, by rw [h4]; rfl⟩
    · split
      · rename_i _ he
        refine .inr ⟨[], e.2, P, ?_, rfl⟩
        rw [← he]; rfl
      · refine .inl ⟨[], e :: P, rfl, rfl, ?_⟩
        intro x hx
        rcases List.mem_cons.1 hx with rfl | hx
        · omega
        · have := h1 x hx; omega

theorem loop_header (k : Consts ν) : ∀ (ls : List Str) (tl : Str) (st : PlySt ν), st.parsedHeader = false → (∀ l ∈ ls, l ≠ c!"end_header") →
    (plyLoop f k (ls ++ [tl]) st).landmarks = st.landmarks ∧ (plyLoop f k ls st).landmarks = st.landmarks := by
  intro ls tl
  induction ls with
  | nil =>
    intro st hp _
    refine ⟨?_, rfl⟩
    rw [List.nil_append]
    simp only [plyLoop, hp, if_true]
    split
    · rfl
    · split <;> rfl
  | cons l ls ih =>
    intro st hp h
    have hl : l ≠ c!"end_header" := h l (by simp)
    have h' : ∀ x ∈ ls, x ≠ c!"end_header" := fun x hx => h x (by simp [hx])
    rw [List.cons_append]
    unfold plyLoop
    simp only [if_pos hp, if_neg hl]
    split
    · exact ih st hp h'
    · exact ih _ (by exact hp) h'

theorem vertices_append (k : Consts ν) (props : List VProp) (a b : List Str) : ∀ n, vertices f k props n (a ++ b) = vertices f k props n a ++ vertices f k props (n + a.length) b := by
  induction a with
  | nil => intro n; rfl
  | cons x a ih =>
    intro n
    show vertexOf f k props n (words x) :: vertices f k props (n + 1) (a ++ b) = vertexOf f k props n (words x) :: (vertices f k props (n + 1) a ++ _)
    rw [ih, List.length_cons, show n + 1 + a.length = n + (a.length + 1) by omega]

theorem putAll_append {α : Type} (m a b : List (Int × α)) : putAll m (a ++ b) = putAll (putAll m a) b := by
  unfold putAll; rw [List.foldl_append]

/-- The lines of a file that was cut off. -/
theorem cut_lines (hf : f.Lawful good rnd) (m : List (Int × Landmark ν)) (n : Nat) : ∃ p, '\n' ∉ p ∧
    (p = [] ↔ (plyText f m).take n = [] ∨ ((plyText f m).take n).getLast? = some '\n') ∧
    ((plyText f m).take n).count '\n' ≤ headerLines + m.length ∧
    Parser.fileLines ((plyText f m).take n) = (plyHeader m.length ++ m.map (plyLine f)).take (((plyText f m).take n).count '\n') ++ (if p = [] then [] else [p]) := by
  have hnl : ∀ l ∈ plyHeader m.length ++ m.map (plyLine f), '\n' ∉ l := by
    intro l hl
    rcases List.mem_append.1 hl with hl | hl
    · exact header_no_newline _ l hl
    · obtain ⟨e, _, rfl⟩ := List.mem_map.1 hl
      exact line_no_newline hf e
  obtain ⟨i, p, h1, h2, h3⟩ := TrackCrash.take_unlines (plyHeader m.length ++ m.map (plyLine f)) n hnl
  have ht : (plyText f m).take n = _ := h1
  have hnl' : ∀ l ∈ (plyHeader m.length ++ m.map (plyLine f)).take i, '\n' ∉ l := fun l hl => hnl l (List.mem_of_mem_take hl)
  have hc : ((plyText f m).take n).count '\n' = i := by
    rw [ht, List.count_append, TrackCrash.count_unlines _ hnl', List.count_eq_zero.2 h2, List.length_take]
    omega
  refine ⟨p, h2, ?_, ?_, ?_⟩
  · rw [ht]
    constructor
    · rintro rfl
      rw [List.append_nil]
      have : ∀ (l : List Str), l ≠ [] → ((l.map (· ++ c!"\n")).flatten).getLast? = some '\n' := by
        intro l hl
        obtain ⟨l', b, rfl⟩ : ∃ l' b, l = l' ++ [b] := ⟨l.dropLast, l.getLast hl, (List.dropLast_concat_getLast hl).symm⟩
        rw [List.map_append, List.flatten_append, List.map_singleton, List.flatten_singleton, ← List.append_assoc, List.getLast?_append]
        rfl
      by_cases hl : (plyHeader m.length ++ m.map (plyLine f)).take i = []
      · left; rw [hl]; rfl
      · right; exact this _ hl
    · intro hp
      rcases hp with hp | hp
      · exact (List.append_eq_nil_iff.1 hp).2
      · cases hl : p.getLast? with
        | none => exact List.getLast?_eq_none_iff.1 hl
        | some c =>
          rw [List.getLast?_append, hl] at hp
          simp only [Option.some_or, Option.some.injEq] at hp
          subst hp
          exact absurd (List.mem_of_getLast? hl) h2
  · rw [hc]
    rw [List.length_append, List.length_map] at h3
    exact h3
  · rw [hc]
    refine Parser.fileLines_of ⟨?_, ?_⟩
    · intro l hl
      rcases List.mem_append.1 hl with hl | hl
      · exact hnl' l hl
      · split at hl
        · cases hl
        · rw [List.mem_singleton.1 hl]; exact h2
    · rw [ht]
      by_cases hp : p = []
      · refine .inl ?_
        simp [hp]
      · refine .inr ⟨(plyHeader m.length ++ m.map (plyLine f)).take i, p, ?_, hp, rfl⟩
        rw [if_neg hp]

/-- What reading a first part of the text gives. -/
theorem read_cut (hf : f.Lawful good rnd) (k : Consts ν) {m : List (Int × Landmark ν)} (ha : Ascending m)
    (hm : ∀ e ∈ m, e.2.loc.All good ∧ e.2.normal.All good ∧ Int64 e.1) (hlen : m.length < 4294967295) (n : Nat) :
    (plyRead f k ((plyText f m).take n) = (complete f m n).map (fun e => (e.1, readBack rnd k e.2))) ∨
    (∃ p, (plyText f m).take n ≠ [] ∧ ((plyText f m).take n).getLast? ≠ some '\n' ∧ headerLines ≤ ((plyText f m).take n).count '\n' ∧
      plyRead f k ((plyText f m).take n) = mapPut ((complete f m n).map (fun e => (e.1, readBack rnd k e.2)))
        (vertexOf f k plyProps (complete f m n).length (words p)).1 (vertexOf f k plyProps (complete f m n).length (words p)).2) := by
  obtain ⟨p, _, hp, hcnt, hlines⟩ := cut_lines hf m n
  unfold complete
  generalize hc : ((plyText f m).take n).count '\n' = c at *
  by_cases h16 : c < 16
  · left
    have e1 : (plyHeader m.length ++ m.map (plyLine f)).take c = (plyHeader m.length).dropLast.take c := by
      rw [show plyHeader m.length = (plyHeader m.length).dropLast ++ [c!"end_header"] from rfl, List.append_assoc, List.take_append_of_le_length]
      · rfl
      · show c ≤ 15; omega
    have hh : ∀ l ∈ (plyHeader m.length).dropLast.take c, l ≠ c!"end_header" := fun l hl => (plyHeader_ok m.length).lines l (List.mem_of_mem_take hl)
    have e2 : c - headerLines = 0 := by unfold headerLines; omega
    rw [e2]
    unfold plyRead
    rw [hlines, e1]
    split
    · rw [List.append_nil]
      exact (loop_header k _ [] {} rfl hh).2
    · exact (loop_header k _ p {} rfl hh).1
  · obtain ⟨j, rfl⟩ : ∃ j, c = 16 + j := ⟨c - 16, by omega⟩
    have hj : j ≤ m.length := by unfold headerLines at hcnt; omega
    have e2 : 16 + j - headerLines = j := by unfold headerLines; omega
    rw [e2]
    have e1 : (plyHeader m.length ++ m.map (plyLine f)).take (16 + j) = (plyHeader m.length).dropLast ++ c!"end_header" :: (m.take j).map (plyLine f) := by
      rw [List.take_append, List.take_of_length_le (by show 16 ≤ 16 + j; omega)]
      rw [show 16 + j - (plyHeader m.length).length = j by show 16 + j - 16 = j; omega, ← List.map_take]
      rfl
    rw [e1, List.append_assoc, List.cons_append] at hlines
    have hr := (C53_partial f k hlines (plyHeader_ok m.length) hlen).1
    have hm' : ∀ e ∈ m.take j, e.2.loc.All good ∧ e.2.normal.All good ∧ Int64 e.1 := fun e he => hm e (List.mem_of_mem_take he)
    have hjl : (m.take j).length = j := by rw [List.length_take]; omega
    have base : putAll [] (vertices f k plyProps 0 ((m.take j).map (plyLine f))) = (m.take j).map (fun e => (e.1, readBack rnd k e.2)) := by
      rw [vertices_lines hf k _ hm', putAll_ascending]
      · rfl
      · show Ascending ((m.take j).map _)
        exact List.pairwise_map.2 (List.Pairwise.sublist (List.take_sublist _ _) ha)
    have hsol : ∀ q, solid ((m.take j).map (plyLine f) ++ q) = (m.take j).map (plyLine f) ++ solid q := by
      intro q
      have := line_solid hf (m.take j)
      unfold solid at this ⊢
      rw [List.filter_append, this]
    have hql : (solid (if p = [] then [] else [p])).length ≤ 1 := by
      unfold solid
      refine Nat.le_trans (List.length_filter_le _ _) ?_
      split <;> simp
    have htk : ((m.take j).map (plyLine f) ++ solid (if p = [] then [] else [p])).take (m.length + 1) = (m.take j).map (plyLine f) ++ solid (if p = [] then [] else [p]) :=
      List.take_of_length_le (by rw [List.length_append, List.length_map, hjl]; omega)
    rw [hsol, plyNames_props, htk, vertices_append, putAll_append, base] at hr
    rw [List.length_map, hjl, Nat.zero_add] at hr
    by_cases hb : p = [] ∨ Blank p
    · left
      have : solid (if p = [] then [] else [p]) = [] := by
        rcases hb with hb | hb
        · simp [hb, solid]
        · split
          · rfl
          · simp [solid, hb]
      rw [this] at hr
      exact hr
    · right
      have hb1 : p ≠ [] := fun h => hb (.inl h)
      have hb2 : ¬ Blank p := fun h => hb (.inr h)
      have : solid (if p = [] then [] else [p]) = [p] := by rw [if_neg hb1]; simp [solid, hb2]
      rw [this] at hr
      refine ⟨p, fun h => hb1 (hp.2 (.inl h)), fun h => hb1 (hp.2 (.inr h)), by unfold headerLines; omega, ?_⟩
      rw [hjl]
      exact hr

/-- C287: reading never fails; the landmarks whose lines reached the file are read, with at most one more (from a line cut in the middle) that is put in, possibly in
    the place of a landmark that was complete. -/
theorem C287_read_partial (hf : f.Lawful good rnd) (k : Consts ν) {m : List (Int × Landmark ν)} (ha : m.Pairwise (fun a b => a.1 < b.1))
    (hm : ∀ e ∈ m, e.2.loc.All good ∧ e.2.normal.All good ∧ Int64 e.1) (hlen : m.length < 4294967295) (n : Nat) :
    OneMore ((complete f m n).map (fun e => (e.1, readBack rnd k e.2))) (plyRead f k ((plyText f m).take n)) := by
  rcases read_cut hf k ha hm hlen n with h | ⟨p, _, _, _, h⟩
  · exact .inl h
  · rw [h]
    exact oneMore_put _ _ _ (List.pairwise_map.2 (List.Pairwise.sublist (List.take_sublist _ _) ha))

/-- C287: if the interruption falls between two lines, or in the header, exactly the landmarks written are read. -/
theorem C287_lines_partial (hf : f.Lawful good rnd) (k : Consts ν) {m : List (Int × Landmark ν)} (ha : m.Pairwise (fun a b => a.1 < b.1))
    (hm : ∀ e ∈ m, e.2.loc.All good ∧ e.2.normal.All good ∧ Int64 e.1) (hlen : m.length < 4294967295) {n : Nat}
    (hn : (plyText f m).take n = [] ∨ ((plyText f m).take n).getLast? = some '\n' ∨ ((plyText f m).take n).count '\n' < headerLines) :
    plyRead f k ((plyText f m).take n) = (complete f m n).map (fun e => (e.1, readBack rnd k e.2)) := by
  rcases read_cut hf k ha hm hlen n with h | ⟨p, h1, h2, h3, _⟩
  · exact h
  · rcases hn with hn | hn | hn
    · exact absurd hn h1
    · exact absurd hn h2
    · omega

/-- C287: no other file changes; the file itself is unchanged or a first part of the text. -/
theorem C287_disk {d : Parser.Disk} {w w' : World} {n : Nat} {m : Option (List (Int × Landmark ν))} {path : Str} {r : Except Exc Unit}
    (hdir : ∀ w p w1, d.makeDir w p = some w1 → w1.content = w.content) (hw : writeUntil n f d w m path = (w', r)) :
    (∀ p, p ≠ path → w'.content p = w.content p) ∧ (w'.content path = w.content path ∨ ∃ l, m = some l ∧ w'.content path = some ((plyText f l).take n)) := by
  unfold writeUntil at hw
  split at hw
  · cases hw; exact ⟨fun _ _ => rfl, .inl rfl⟩
  · split at hw
    · cases hw; exact ⟨fun _ _ => rfl, .inl rfl⟩
    · unfold writeText at hw
      split at hw
      · cases hw; exact ⟨fun _ _ => rfl, .inl rfl⟩
      · simp only at hw
        split at hw
        · cases hw; exact ⟨fun _ _ => rfl, .inl rfl⟩
        · rename_i w1 h1
          have hc : w1.content = w.content := by
            split at h1
            · cases h1; rfl
            · exact hdir _ _ _ h1
          cases hw
          split
          · refine ⟨fun p hp => by simp [Parser.World.store, hp, hc], .inr ⟨_, rfl, by simp [Parser.World.store]⟩⟩
          · exact ⟨fun p _ => by rw [hc], .inl (by rw [hc])⟩

/-- C287 on files: the interrupted write, then `read_ply_file`. -/
theorem C287_files_partial (hf : f.Lawful good rnd) (k : Consts ν) {m : List (Int × Landmark ν)} (ha : m.Pairwise (fun a b => a.1 < b.1))
    (hm : ∀ e ∈ m, e.2.loc.All good ∧ e.2.normal.All good ∧ Int64 e.1) (hlen : m.length < 4294967295) (hne : m ≠ []) (n : Nat)
    {d : Parser.Disk} {w w1 : World} {path : Str} (hpath : path ≠ []) (hdir : w.isDir path = false) (hprep : Prepared d w path w1)
    (hcan : d.canWrite w1 path = true) :
    ∃ w' R, writeUntil n f d w (some m) path = (w', .ok ()) ∧ readPlyFile f k w' path = .ok R ∧
      OneMore ((complete f m n).map (fun e => (e.1, readBack rnd k e.2))) R := by
  refine ⟨Parser.World.store w1 path ((plyText f m).take n), _, ?_, ?_, C287_read_partial hf k ha hm hlen n⟩
  · show (if m.length = 0 then _ else _) = _
    rw [if_neg (by simpa using hne)]
    exact writeText_ok _ hdir hprep hcan
  · unfold readPlyFile Parser.World.store fileExists
    simp only [if_true, Bool.and_true, bne_eq_false_iff_eq, hpath, if_false]

/-! ### Examples -/

/-- Landmarks 0 and 5. -/
def two : List (Int × Landmark Int) := [(0, ⟨⟨10, 20, 30⟩, 1, ⟨0, 0, 1⟩, ⟨1, 2, 3⟩, 3⟩), (5, ⟨⟨40, 50, 60⟩, 1, ⟨0, 1, 0⟩, {}, 2⟩)]

theorem two_ok : two.Pairwise (fun a b => a.1 < b.1) ∧ (∀ e ∈ two, e.2.loc.All (fun n => -2147483648 ≤ n ∧ n ≤ 2147483647) ∧
    e.2.normal.All (fun n => -2147483648 ≤ n ∧ n ≤ 2147483647) ∧ Int64 e.1) ∧ two.length < 4294967295 := by
  refine ⟨by simp [two], ?_, by decide⟩
  intro e he
  simp [two] at he
  rcases he with rfl | rfl <;> simp [Vec3.All, Int64]

/-- The text up to `40 50 6`. -/
def cutAt : Nat := (plyText intFmt (two.take 1)).length + 7

/-- C287 is false of the code: a location cut off in the middle is read as another one, under a made-up id. -/
theorem C287_refuted : ¬ C287_statement intFmt (fun n => -2147483648 ≤ n ∧ n ≤ 2147483647) id := by
  intro h
  obtain ⟨j, hj⟩ := h ⟨0, 1⟩ two cutAt two_ok.1 two_ok.2.1 two_ok.2.2
  have e : (plyRead intFmt ⟨0, 1⟩ ((plyText intFmt two).take cutAt)).map (fun e => (e.1, e.2.loc.z)) = [(0, 30), (1, 6)] := by decide +kernel
  rw [hj] at e
  rcases Nat.lt_or_ge j 2 with h2 | h2
  · have := congrArg List.length e
    simp [two] at this
    omega
  · rw [List.take_of_length_le (by show 2 ≤ j; exact h2)] at e
    revert e
    decide

/-- Ids 1 and 12: the line of 12 is cut after the first digit of its id, and takes the place of landmark 1, which was complete. -/
theorem C287_overwrites : ∃ (m : List (Int × Landmark Int)) (n : Nat), m.Pairwise (fun a b => a.1 < b.1) ∧
    complete intFmt m n = m.take 1 ∧ m.length = 2 ∧ (plyRead intFmt ⟨0, 1⟩ (plyText intFmt m)).map (fun e => (e.1, e.2.loc.x)) = [(1, 10), (12, 40)] ∧
    (plyRead intFmt ⟨0, 1⟩ ((plyText intFmt m).take n)).map (fun e => (e.1, e.2.loc.x)) = [(1, 40)] := by
  refine ⟨[(1, ⟨⟨10, 20, 30⟩, 1, ⟨0, 0, 1⟩, ⟨1, 2, 3⟩, 3⟩), (12, ⟨⟨40, 50, 60⟩, 1, ⟨0, 1, 0⟩, {}, 2⟩)],
    (plyText intFmt [(1, ⟨⟨10, 20, 30⟩, 1, ⟨0, 0, 1⟩, ⟨1, 2, 3⟩, 3⟩)]).length + 28, by simp, ?_, rfl, ?_, ?_⟩ <;> decide +kernel

/-- The first landmark reached the file. -/
example : plyRead intFmt ⟨0, 1⟩ ((plyText intFmt two).take (cutAt - 7)) = (two.take 1).map (fun e => (e.1, readBack id ⟨0, 1⟩ e.2)) ∧
    ((plyText intFmt two).take (cutAt - 7)).getLast? = some '\n' := by
  have e : ((plyText intFmt two).take (cutAt - 7)).getLast? = some '\n' := by decide +kernel
  have h := C287_lines_partial intFmt_lawful ⟨0, 1⟩ two_ok.1 two_ok.2.1 two_ok.2.2 (.inr (.inl e))
  have c : complete intFmt two (cutAt - 7) = two.take 1 := by decide +kernel
  rw [c] at h
  exact ⟨h, e⟩

end Vital.IO.PlyCrash
