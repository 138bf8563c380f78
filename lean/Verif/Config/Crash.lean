import Verif.Config.ReadFileProps
/-
  Interrupted writing of a configuration file; property C285.

  The file is written through `std::ofstream`, in pieces of any size.  An interruption (the program or the machine stops, or the device
  is full or fails) leaves a first part of the text in the file; the code never asks the stream whether it failed.
-/
namespace Vital.Parser.Crash
open Vital Vital.Config Vital.Parser Vital.Expand Vital.Sys

/-! ### The code -/

/-- When the interruption comes: before the file is opened (and its directory made or not), or after `n` bytes of text reached the device. -/
inductive Moment where
  | early (dirMade : Bool)
  | written (n : Nat)

/-- The file system after `write_config_file` up to the moment, and what the caller gets if it is a device that fails. -/
-- models: vital/config/config_block_io.cxx:365-400 (write_config_file; 396-399: no check of `ofile`)
def writeUntil (m : Moment) (d : Disk) (w : World) (h : Heap) (b : Nat) (path : Str) : World × Except WriteExc Unit :=
  if fileIsDirectory w path then (w, .error .write)
  else
    let parent := getFilenamePath w (collapseFullPath w path)
    match (if fileIsDirectory w parent then some w else d.makeDir w parent) with
    | none => (w, .error .write)
    | some w1 => match m with
      | .early made => (if made then w1 else w, (writeConfig h b).2)
      | .written n => (if d.canWrite w1 path then World.store w1 path ((writeConfig h b).1.take n) else w1, (writeConfig h b).2)

/-- Without an interruption it is `write_config_file`. -/
theorem writeUntil_all (d : Disk) (w : World) (h : Heap) (b : Nat) (path : Str) {n : Nat} (hn : (writeConfig h b).1.length ≤ n) :
    writeUntil (.written n) d w h b path = writeConfigFile d w h b path := by
  unfold writeUntil writeConfigFile
  split
  · rfl
  · simp only
    split <;> rename_i h1 <;> rw [h1]
    simp [List.take_of_length_le hn]

/-- Full property C285: what an interrupted write leaves is never taken for a complete file: reading fails, or gives the file that was there
    before or the block that was to be written. -/
def C285_statement : Prop := ∀ (m : Moment) (d : Disk) (w w' : World) (h : Heap) (b : Nat) (path : Str) (search : List Str) (r : Except WriteExc Unit),
  Reachable h → IsRoot h b → (∀ k, hasValue h b k = .ok true → PlainKey k) → (∀ k v, getValue h b k = .ok v → PlainValue v) →
  (∀ k f n, getLocation h b k = .ok (some (f, n)) → '\n' ∉ f) → writeUntil m d w h b path = (w', r) →
  w'.content path = w.content path ∨ ∀ h' b', ReadsFile w' [] search path h' (.ok b') → ∀ k, getValue h' b' k = getValue h b k

/-! ### Proofs -/

/-- C285: no other file changes; the file itself is unchanged or a first part of the text. -/
theorem C285_disk {m : Moment} {d : Disk} {w w' : World} {h : Heap} {b : Nat} {path : Str} {r : Except WriteExc Unit}
    (hdir : ∀ w p w1, d.makeDir w p = some w1 → w1.content = w.content) (hw : writeUntil m d w h b path = (w', r)) :
    (∀ p, p ≠ path → w'.content p = w.content p) ∧ (w'.content path = w.content path ∨ ∃ n, w'.content path = some ((writeConfig h b).1.take n)) := by
  unfold writeUntil at hw
  split at hw
  · cases hw; exact ⟨fun _ _ => rfl, .inl rfl⟩
  · simp only at hw
    split at hw
    · cases hw; exact ⟨fun _ _ => rfl, .inl rfl⟩
    · rename_i w1 h1
      have hc : w1.content = w.content := by
        split at h1
        · cases h1; rfl
        · exact hdir _ _ _ h1
      cases m with
      | early made =>
        cases hw
        cases made
        · exact ⟨fun _ _ => rfl, .inl rfl⟩
        · exact ⟨fun p _ => by simp [hc], .inl (by simp [hc])⟩
      | written n =>
        simp only at hw
        cases hw
        split
        · refine ⟨fun p hp => ?_, .inr ⟨n, ?_⟩⟩
          · simp [World.store, hp, hc]
          · simp [World.store]
        · exact ⟨fun p _ => by rw [hc], .inl (by rw [hc])⟩

/-- A line of the file: blank or a comment, or the line of an entry. -/
def WLine (h : Heap) (b : Nat) (x : Option (Str × Str) × Str) : Prop :=
  '\n' ∉ x.2 ∧ match x.1 with
    | none => x.2 = [] ∨ x.2.head? = some '#'
    | some (k, v) => x.2 = k ++ c!" = " ++ v ∧ getValue h b k = .ok v

def texts (L : List (Option (Str × Str) × Str)) : List Str := L.map (·.2)
def entries (L : List (Option (Str × Str) × Str)) : List (Str × Str) := L.filterMap (·.1)

theorem comments_wline {h : Heap} {b : Nat} {ls : List Str} (hl : ∀ l ∈ ls, '\n' ∉ l ∧ (l = [] ∨ l.head? = some '#')) :
    (∀ x ∈ ls.map (fun l => ((none : Option (Str × Str)), l)), WLine h b x) ∧ texts (ls.map (fun l => (none, l))) = ls ∧ entries (ls.map (fun l => (none, l))) = [] := by
  refine ⟨?_, ?_, ?_⟩
  · intro x hx
    obtain ⟨l, h1, rfl⟩ := List.mem_map.1 hx
    exact hl l h1
  · unfold texts
    rw [List.map_map]
    exact List.map_id' ls
  · unfold entries
    induction ls with
    | nil => rfl
    | cons l ls ih => simp only [List.map_cons, List.filterMap_cons_none]; exact ih fun l' hl' => hl l' (by simp [hl'])

theorem entries_tagged {h : Heap} {b : Nat} : ∀ (ks ts : List Str), ts.length = ks.length → (∀ p ∈ ks.zip ts, EntryText h b p.1 p.2) →
    (∀ k ∈ ks, PlainKey k) → (∀ k ∈ ks, ∀ v, getValue h b k = .ok v → PlainValue v) →
    (∀ k ∈ ks, ∀ f n, getLocation h b k = .ok (some (f, n)) → '\n' ∉ f) →
    ∃ L, ts.flatten = unlines (texts L) ∧ (∀ x ∈ L, WLine h b x) ∧ (entries L).map Prod.fst = ks := by
  intro ks
  induction ks with
  | nil =>
    intro ts hlen _ _ _ _
    have : ts = [] := List.length_eq_zero_iff.1 hlen
    subst this
    exact ⟨[], rfl, by simp, rfl⟩
  | cons k ks ih =>
    intro ts hlen ht hk hv hloc
    cases ts with
    | nil => simp at hlen
    | cons t ts =>
      obtain ⟨L, e1, e2, e3⟩ := ih ts (by simpa using hlen) (fun p hp => ht p (by simp [hp])) (fun x hx => hk x (by simp [hx]))
        (fun x hx => hv x (by simp [hx])) (fun x hx => hloc x (by simp [hx]))
      have ht' : EntryText h b k t := ht (k, t) (by simp)
      obtain ⟨com, v, loc, g1, g2, ⟨cl, rfl, g4⟩, rfl⟩ := ht'
      have pv := hv k (by simp) v g1
      have pk := hk k (by simp)
      have hll : ∃ ll : List Str, locationComment loc = unlines ll ∧ ∀ l ∈ ll, '\n' ∉ l ∧ (l = [] ∨ l.head? = some '#') := by
        cases loc with
        | none => exact ⟨[], rfl, by simp⟩
        | some l =>
          obtain ⟨f, m⟩ := l
          refine ⟨[c!"# defined - " ++ f ++ c!":" ++ intStr m], by simp [locationComment, unlines], ?_⟩
          intro l hl
          rw [List.mem_singleton] at hl
          subst hl
          refine ⟨?_, .inr rfl⟩
          have h1 := hloc k (by simp) f m g2
          have h2 : '\n' ∉ intStr m := by
            intro hm
            have := intStr_no_space m _ hm
            revert this; decide
          simp only [List.mem_append, not_or]
          exact ⟨⟨⟨by decide, h1⟩, by decide⟩, h2⟩
      obtain ⟨ll, k1, k2⟩ := hll
      obtain ⟨c1, c2, c3⟩ := comments_wline (h := h) (b := b) g4
      obtain ⟨d1, d2, d3⟩ := comments_wline (h := h) (b := b) k2
      refine ⟨cl.map (fun l => (none, l)) ++ (some (k, v), k ++ c!" = " ++ v) :: (ll.map (fun l => (none, l)) ++ L), ?_, ?_, ?_⟩
      · have : texts (cl.map (fun l => (none, l)) ++ (some (k, v), k ++ c!" = " ++ v) :: (ll.map (fun l => (none, l)) ++ L)) =
            cl ++ (k ++ c!" = " ++ v) :: (ll ++ texts L) := by
          unfold texts at c2 d2 ⊢
          rw [List.map_append, List.map_cons, List.map_append, c2, d2]
        rw [this, List.flatten_cons, e1, unlines_append, unlines_cons, unlines_append, k1]
        simp
      · intro x hx
        simp only [List.mem_append, List.mem_cons] at hx
        rcases hx with hx | rfl | hx | hx
        · exact c1 x hx
        · refine ⟨?_, rfl, g1⟩
          simp [(key_no pk.1).1, pv.1]
        · exact d1 x hx
        · exact e2 x hx
      · unfold entries at c3 d3 e3 ⊢
        rw [List.filterMap_append, c3, List.filterMap_cons]
        simp only [List.nil_append, List.filterMap_append, d3, List.map_cons, e3]

/-- A first part of the text: some lines, and a first part of the next line. -/
theorem take_lines : ∀ (L : List (Option (Str × Str) × Str)) (n : Nat), ∃ L1 p, (unlines (texts L)).take n = unlines (texts L1) ++ p ∧
    ((L = L1 ∧ p = []) ∨ ∃ x L2, L = L1 ++ x :: L2 ∧ p <+: x.2) := by
  intro L
  induction L with
  | nil => intro n; exact ⟨[], [], by simp [texts, unlines], .inl ⟨rfl, rfl⟩⟩
  | cons x L ih =>
    intro n
    have e : texts (x :: L) = x.2 :: texts L := rfl
    by_cases hn : n ≤ x.2.length
    · refine ⟨[], x.2.take n, ?_, .inr ⟨x, L, rfl, List.take_prefix _ _⟩⟩
      rw [e, unlines_cons, List.append_assoc, List.take_append_of_le_length hn]
      simp [texts, unlines]
    · obtain ⟨L1, p, h1, h2⟩ := ih (n - (x.2.length + 1))
      refine ⟨x :: L1, p, ?_, ?_⟩
      · rw [e, unlines_cons, show texts (x :: L1) = x.2 :: texts L1 from rfl, unlines_cons, List.take_append, List.take_of_length_le (by simp; omega)]
        simp only [List.length_append, List.length_singleton]
        rw [h1]
        simp
      · rcases h2 with ⟨rfl, rfl⟩ | ⟨y, L2, rfl, h3⟩
        · exact .inl ⟨rfl, rfl⟩
        · exact .inr ⟨y, L2, rfl, h3⟩

theorem lines_tagged {h : Heap} {b : Nat} : ∀ (L : List (Option (Str × Str) × Str)) (n : Nat) (tail : List Str), (∀ x ∈ L, WLine h b x) →
    (∀ e ∈ entries L, PlainKey e.1 ∧ PlainValue e.2 ∧ trim e.2 = e.2) →
    ∃ es : List (Nat × Str × Str), es.map (·.2) = entries L ∧ ∀ dt, Lines (n + L.length) tail dt →
      Lines n (texts L ++ tail) (es.map (fun e => (e.1, .entry false e.2.1 [] e.2.2)) ++ dt) := by
  intro L
  induction L with
  | nil => intro n tail _ _; exact ⟨[], rfl, fun dt h => h⟩
  | cons x L ih =>
    intro n tail hx hp
    obtain ⟨t, l⟩ := x
    have hh := hx (t, l) (by simp)
    cases t with
    | none =>
      obtain ⟨es, h1, h2⟩ := ih (n + 1) tail (fun y hy => hx y (by simp [hy])) (fun e he => hp e he)
      refine ⟨es, h1, fun dt hd => ?_⟩
      refine .skip (cleans_hash hh.2) (h2 dt ?_)
      rw [List.length_cons] at hd
      rw [show n + 1 + L.length = n + (L.length + 1) by omega]; exact hd
    | some kv =>
      obtain ⟨k, v⟩ := kv
      have he : entries ((some (k, v), l) :: L) = (k, v) :: entries L := rfl
      rw [he] at hp
      obtain ⟨es, h1, h2⟩ := ih (n + 1) tail (fun y hy => hx y (by simp [hy])) (fun e he => hp e (by simp [he]))
      obtain ⟨pk, pv, tv⟩ := hp (k, v) (by simp)
      refine ⟨(n + 1, k, v) :: es, by rw [he, List.map_cons, h1], fun dt hd => ?_⟩
      have hl : l = k ++ c!" = " ++ v := hh.2.1
      subst hl
      refine entry_line pk pv tv n _ _ (h2 dt ?_)
      rw [List.length_cons] at hd
      rw [show n + 1 + L.length = n + (L.length + 1) by omega]; exact hd

/-- A line that ends in the value (or before it): the value is what is there, without blanks around. -/
theorem entry_cut {k v q : Str} (hk : PlainKey k) (hv : PlainValue v) (hq : q <+: v) (n : Nat) : ∀ q', q' = [] ∧ q = [] ∨ q' = ' ' :: q →
    Lines n [k ++ c!" =" ++ q'] [(n + 1, .entry false k [] (trim q))] := by
  intro q' hq'
  obtain ⟨a, ka, hka⟩ := hk.1.2.1
  have hspa : isSpace a = false := key_head_nonspace hk.1 [] a (by simpa using ka)
  have hqh : '#' ∉ q := fun hh => hv.2.1 (hq.subset hh)
  obtain ⟨b1, b2, h1, h2, h3⟩ := trim_spec q
  have htr := trim_trimmed q
  by_cases ht : trim q = []
  · have hbl : Blank q' := by
      rcases hq' with ⟨rfl, _⟩ | rfl
      · intro c hc; cases hc
      · rw [ht] at h3
        rw [h3]
        intro c hc
        simp only [List.mem_cons, List.mem_append, List.not_mem_nil, or_false] at hc
        rcases hc with rfl | hc | hc
        · rfl
        · exact h1 c hc
        · exact h2 c hc
    rw [ht]
    refine .line (c := k ++ c!" =") (c' := k ++ c!" =") ⟨[], q', [], by simp, by simp [Blank], hbl, ⟨?_, ?_⟩, ?_, .inl rfl⟩
      (by simp) .same (.whole ?_) .nil
    · intro c hc; rw [List.head?_append, ka] at hc; simp at hc; subst hc; exact hspa
    · intro c hc
      rw [last_append_ne (by simp)] at hc
      have : c = '=' := by simpa using hc.symm
      subst this; rfl
    · simp [(key_no hk.1).2]
    · have hsp : Blank (c!" ") := by intro c hc; simp at hc; subst hc; rfl
      have := LineIs.entry (rel := false) (p := []) (key := k) (fl := c!" ") (flags := []) (v := []) (rhs := []) rfl hk.1 (fun _ => hk.2) (.nil hsp)
        ((stripsTo_iff _ _).2 rfl)
      simpa using this
  · have hq'' : q' = ' ' :: q := by
      rcases hq' with ⟨_, rfl⟩ | h
      · exact absurd rfl ht
      · exact h
    subst hq''
    refine .line (c := k ++ c!" = " ++ b1 ++ trim q) (c' := k ++ c!" = " ++ b1 ++ trim q) ⟨[], b2, [], ?_, by simp [Blank], h2, ⟨?_, ?_⟩, ?_, .inl rfl⟩
      (by simp) .same (.whole ?_) .nil
    · conv => lhs; rw [h3]
      simp
    · intro c hc; rw [List.append_assoc, List.append_assoc, List.head?_append, ka] at hc; simp at hc; subst hc; exact hspa
    · intro c hc
      rw [last_append_ne ht] at hc
      exact htr.2 c hc
    · have : '#' ∉ b1 ∧ '#' ∉ trim q := by
        rw [h3] at hqh
        simp only [List.mem_append, not_or] at hqh
        exact hqh.1
      simp [(key_no hk.1).2, this.1, this.2]
    · have hsp : Blank (c!" ") := by intro c hc; simp at hc; subst hc; rfl
      have := LineIs.entry (rel := false) (p := []) (key := k) (fl := c!" ") (flags := []) (v := ' ' :: b1 ++ trim q) (rhs := trim q) rfl hk.1 (fun _ => hk.2) (.nil hsp)
        ⟨' ' :: b1, [], by
          intro c hc
          rcases List.mem_cons.1 hc with rfl | hc
          · rfl
          · exact h1 c hc, by simp, htr, by simp⟩
      simpa using this

/-- What makes a parse fail if it is all that remains. -/
def Refused (d : Directive) : Prop := d = .bad ∨ d = .endblock ∨ ∃ name, d = .block name

theorem lineIs_noEq {c : Str} {d : Directive} (h : LineIs c d) (he : '=' ∉ c) (hi : ¬ c!"include" <+: c) : Refused d := by
  cases h with
  | entry => simp at he
  | sym => simp at he
  | block => exact .inr (.inr ⟨_, rfl⟩)
  | endblock => exact .inr (.inl rfl)
  | incl => exact absurd (List.prefix_append _ _) hi
  | noToken => exact .inl rfl
  | flagFirst => exact .inl rfl
  | assignFirst => exact .inl rfl
  | symFirst => exact .inl rfl
  | noAssign => exact .inl rfl
  | noName => exact .inl rfl

theorem logical_last {n m : Nat} {c : Str} {d : Directive} {ls rest : List Str} (h : Logical n c ls m d rest) (hl : ls = []) : rest = [] ∧ (d = .bad ∨ LineIs c d) := by
  cases h with
  | whole h1 => exact ⟨hl, .inr h1⟩
  | join => simp at hl
  | cut => exact ⟨rfl, .inl rfl⟩

theorem key_cut {k p : Str} (hk : PlainKey k) (hi : ¬ c!"include" <+: k) (hp : p <+: k ++ c!" ") (n : Nat) :
    ∃ dt, Lines n [p] dt ∧ (dt = [] ∨ ∃ m d, dt = [(m, d)] ∧ Refused d) := by
  obtain ⟨ds, hds⟩ := lines_total 1 n [p] (by simp)
  have hchars : '=' ∉ p := by
    intro hh
    have := hp.subset hh
    simp only [List.mem_append, List.mem_singleton] at this
    rcases this with h1 | h1
    · have h2 := hk.1.2.2.1 _ h1
      have h3 : ¬ '=' ∈ wordChars := by decide +kernel
      exact h3 h2
    · revert h1; decide
  refine ⟨ds, hds, ?_⟩
  generalize hls : [p] = ls at hds
  cases hds with
  | nil => exact .inl rfl
  | skip h1 h2 =>
    injection hls with e1 e2
    subst e2
    cases h2
    exact .inl rfl
  | @line _ l ls' c c' m d rest ds' hcl hne hno hlo hrest =>
    injection hls with e1 e2
    subst e1
    subst e2
    obtain ⟨h1, h2⟩ := logical_last hlo rfl
    subst h1
    cases hrest
    refine .inr ⟨m, d, rfl, ?_⟩
    obtain ⟨b1, b2, com, e3, hb1, hb2, htr, hc, hcom⟩ := hcl
    have hsub : '=' ∉ c := fun hh => hchars (by rw [e3]; simp [hh])
    have hc' : c' = c := by
      cases hno with
      | same => rfl
      | assign => simp at hsub
      | symAssign => simp at hsub
    subst hc'
    rcases h2 with h2 | h2
    · exact .inl h2
    · refine lineIs_noEq h2 hsub ?_
      rintro ⟨t, rfl⟩
      have hb : b1 = [] := by
        cases b1 with
        | nil => rfl
        | cons x b1 =>
          obtain ⟨q, hq⟩ := hp
          have := key_head_nonspace hk.1 (c!" ") x (by rw [← hq, e3]; rfl)
          rw [hb1 x (by simp)] at this
          cases this
      subst hb
      have : c!"include" <+: k ++ c!" " := by
        obtain ⟨pq, hpq⟩ := hp
        refine ⟨t ++ b2 ++ com ++ pq, ?_⟩
        rw [← hpq, e3]
        simp
      rcases List.prefix_concat_iff.1 this with h3 | h3
      · have := congrArg List.getLast? h3
        simp at this
      · exact hi h3

/-- What remains of a line. -/
theorem tail_cut {h : Heap} {b : Nat} {x : Option (Str × Str) × Str} (hx : WLine h b x) {p : Str} (hp : p <+: x.2)
    (hk : ∀ k v, x.1 = some (k, v) → PlainKey k ∧ ¬ c!"include" <+: k ∧ PlainValue v) (n : Nat) :
    ∃ dt, Lines n [p] dt ∧ (dt = [] ∨ (∃ m d, dt = [(m, d)] ∧ Refused d) ∨
      ∃ m k v q, dt = [(m, .entry false k [] (trim q))] ∧ x.1 = some (k, v) ∧ q <+: v) := by
  obtain ⟨t, l⟩ := x
  cases t with
  | none =>
    refine ⟨[], .skip (cleans_hash ?_) .nil, .inl rfl⟩
    obtain ⟨q, rfl⟩ := hp
    cases p with
    | nil => exact .inl rfl
    | cons c p =>
      rcases hx.2 with h1 | h1
      · cases h1
      · exact .inr h1
  | some kv =>
    obtain ⟨k, v⟩ := kv
    obtain ⟨pk, hi, pv⟩ := hk k v rfl
    have hl : l = (k ++ c!" ") ++ (c!"= " ++ v) := by rw [show l = k ++ c!" = " ++ v from hx.2.1]; simp
    subst hl
    have short : p <+: k ++ c!" " → ∃ dt, Lines n [p] dt ∧ (dt = [] ∨ (∃ m d, dt = [(m, d)] ∧ Refused d) ∨
        ∃ m k' v' q, dt = [(m, .entry false k' [] (trim q))] ∧ some (k, v) = some (k', v') ∧ q <+: v') := by
      intro hs
      obtain ⟨dt, h1, h2⟩ := key_cut pk hi hs n
      exact ⟨dt, h1, h2.elim .inl (fun h => .inr (.inl h))⟩
    rcases List.prefix_or_prefix_of_prefix hp (List.prefix_append (k ++ c!" ") _) with hs | ⟨q0, rfl⟩
    · exact short hs
    · have h0 : q0 <+: c!"= " ++ v := (List.prefix_append_right_inj _).1 hp
      cases q0 with
      | nil => exact short (by simp)
      | cons c q0 =>
        have e1 : c!"= " ++ v = '=' :: ' ' :: v := rfl
        rw [e1, List.cons_prefix_cons] at h0
        obtain ⟨rfl, h0⟩ := h0
        cases q0 with
        | nil =>
          have := entry_cut pk pv List.nil_prefix n [] (.inl ⟨rfl, rfl⟩)
          exact ⟨_, by simpa using this, .inr (.inr ⟨_, k, v, [], rfl, rfl, List.nil_prefix⟩)⟩
        | cons c q0 =>
          rw [List.cons_prefix_cons] at h0
          obtain ⟨rfl, h0⟩ := h0
          have := entry_cut pk pv h0 n (' ' :: q0) (.inr rfl)
          exact ⟨_, by simpa using this, .inr (.inr ⟨_, k, v, q0, rfl, rfl, h0⟩)⟩

/-- Reading entries of plain values, then the rest. -/
theorem exec_inv {w : World} {search : List Str} {file : Str} : ∀ (es : List (Nat × Str × Str)) (dt : List (Nat × Directive)) (e e' : Env) (tr : List Stmt) (r : Res),
    (∀ x ∈ es, PlainValue x.2.2 ∧ trim x.2.2 = x.2.2) → (∀ k, e.ro k = false) →
    Exec w search [file] [] (es.map (fun x => (x.1, .entry false x.2.1 [] x.2.2)) ++ dt) e tr r e' →
    ∃ tr' e1, Exec w search [file] [] dt e1 tr' r e' ∧ (tr'.any Stmt.isError = true → tr.any Stmt.isError = true) ∧ (∀ k, e1.ro k = false) ∧
      (∀ k v, (∀ x ∈ es, x.2.1 = k → x.2.2 = v) → (∃ x ∈ es, x.2.1 = k) → e1.val k = some v) ∧
      (∀ k, (∀ x ∈ es, x.2.1 ≠ k) → e1.val k = e.val k) := by
  intro es
  induction es with
  | nil => intro dt e e' tr r _ hro hx; exact ⟨tr, e, hx, id, hro, fun k v _ h => by simp at h, fun _ _ => rfl⟩
  | cons x es ih =>
    intro dt e e' tr r hp hro hx
    obtain ⟨m, k, v⟩ := x
    obtain ⟨pv, tv⟩ := hp (m, k, v) (by simp)
    simp only [List.map_cons, List.cons_append] at hx
    cases hx with
    | @entry _ _ _ _ _ _ _ _ _ _ x v' tr1 _ _ hrhs hst hr0 hrest =>
      obtain ⟨y, hy, hxy⟩ := hrhs
      have hyv := expands_plain pv.2.2 hy
      simp only [Bool.false_eq_true, if_false] at hxy
      subst hyv
      subst hxy
      have : v' = x := by rw [← (stripsTo_iff _ _).1 hst, tv]
      subst this
      obtain ⟨tr', e1, h1, h2, h3, h4, h5⟩ := ih dt _ e' tr1 r (fun z hz => hp z (by simp [hz])) (by intro k'; simp [Env.apply, hro]) hrest
      refine ⟨tr', e1, h1, ?_, h3, ?_, ?_⟩
      · intro ht
        have := h2 ht
        simp only [List.any_append, List.any_cons, Bool.or_eq_true]
        exact .inr (.inr this)
      · intro k' v'' hu hk'
        by_cases hm : ∃ x ∈ es, x.2.1 = k'
        · exact h4 k' v'' (fun z hz => hu z (by simp [hz])) hm
        · obtain ⟨z, hz, hzk⟩ := hk'
          rcases List.mem_cons.1 hz with rfl | hz
          · rw [h5 k' (fun z hz hzk => hm ⟨z, hz, hzk⟩)]
            have := hu _ (List.mem_cons_self ..) hzk
            simp only at hzk this
            subst hzk
            subst this
            simp [Env.apply, blockPrefix]
          · exact absurd ⟨z, hz, hzk⟩ hm
      · intro k' hk'
        rw [h5 k' (fun z hz => hk' z (by simp [hz]))]
        have : k ≠ k' := hk' (m, k, v') (by simp)
        simp [Env.apply, blockPrefix, Ne.symm this]
    | protectedEntry h1 h2 => rw [hro] at h2; cases h2

/-- C285: when an interrupted file can be read at all, the keys read are keys of the block; the smaller keys of the block are read with their values;
    the value of a key itself may be cut off.  (So all but the last key have their values.)  Keys beginning with `include` are left out. -/
theorem C285_read_partial {h : Heap} (hr : Reachable h) {b : Nat} (hb : IsRoot h b)
    (hkeys : ∀ k, hasValue h b k = .ok true → PlainKey k ∧ ¬ c!"include" <+: k) (hvals : ∀ k v, getValue h b k = .ok v → PlainValue v)
    (hlocs : ∀ k f n, getLocation h b k = .ok (some (f, n)) → '\n' ∉ f) {k0 : Str} (hne : hasValue h b k0 = .ok true)
    {n : Nat} {w : World} {file : Str} (hc : w.content file = some ((writeConfig h b).1.take n)) (search : List Str) {h0 : Heap} (hr0 : Reachable h0)
    {s' : PS} (hp : Parses w (fresh h0 search) file s' (.ok ())) (k : Str) (hk : hasValue s'.heap s'.cfg k = .ok true) :
    hasValue h b k = .ok true ∧ (∃ v x, getValue h b k = .ok v ∧ x <+: v ∧ getValue s'.heap s'.cfg k = .ok (trim x)) ∧
      ∀ k', hasValue h b k' = .ok true → strLt k' k = true → hasValue s'.heap s'.cfg k' = .ok true ∧ getValue s'.heap s'.cfg k' = getValue h b k' := by
  obtain ⟨hok, ks, ts, g1, g2, g3, g4, g5⟩ := C27_sorted_entries hr hb hne
  obtain ⟨blk, b1, b2⟩ := hb
  have vw := ViewOf.root b1 b2
  have htrim : ∀ k v, getValue h b k = .ok v → trim v = v := by
    intro k v hv
    rw [get_view hr.wf vw b1] at hv
    simp only [List.nil_append] at hv
    cases hf : blk.store.find? k with
    | none => rw [hf] at hv; cases hv
    | some x =>
      rw [hf] at hv
      cases hv
      exact (hr.wf _ _ b1).trimmed k v hf
  obtain ⟨L, e1, e2, e3⟩ := entries_tagged ks ts g4 g5 (fun k hk => (hkeys k ((g3 k).1 hk)).1) (fun k _ v hv => hvals k v hv)
    (fun k _ f n hl => hlocs k f n hl)
  obtain ⟨L1, p, t1, t2⟩ := take_lines L n
  have hsub : ∀ x ∈ L1, x ∈ L := by
    intro x hx
    rcases t2 with ⟨rfl, _⟩ | ⟨y, L2, rfl, _⟩
    · exact hx
    · simp [hx]
  have hent : ∀ x ∈ L, ∀ kv, x.1 = some kv → getValue h b kv.1 = .ok kv.2 ∧ kv.1 ∈ ks := by
    intro x hx kv hkv
    have h1 := (e2 x hx).2
    rw [hkv] at h1
    refine ⟨h1.2, ?_⟩
    rw [← e3]
    exact List.mem_map.2 ⟨kv, List.mem_filterMap.2 ⟨x, hx, hkv⟩, rfl⟩
  have hent1 : ∀ kv ∈ entries L1, getValue h b kv.1 = .ok kv.2 ∧ kv.1 ∈ ks := by
    intro kv hkv
    obtain ⟨x, hx, h1⟩ := List.mem_filterMap.1 hkv
    exact hent x (hsub x hx) kv h1
  have hplain : ∀ kv ∈ entries L1, PlainKey kv.1 ∧ PlainValue kv.2 ∧ trim kv.2 = kv.2 := fun kv hkv =>
    ⟨(hkeys _ ((g3 _).1 (hent1 kv hkv).2)).1, hvals _ _ (hent1 kv hkv).1, htrim _ _ (hent1 kv hkv).1⟩
  have hnl1 : ∀ l ∈ texts L1, '\n' ∉ l := by
    intro l hl
    obtain ⟨x, hx, rfl⟩ := List.mem_map.1 hl
    exact (e2 x (hsub x hx)).1
  -- what remains of the line that is cut
  have htail : ∃ tail dt, TextIs ((writeConfig h b).1.take n) (texts L1 ++ tail) ∧ Lines (0 + L1.length) tail dt ∧
      (dt = [] ∨ (∃ m d, dt = [(m, d)] ∧ Refused d) ∨
        ∃ m k v q L2 l, dt = [(m, .entry false k [] (trim q))] ∧ L = L1 ++ (some (k, v), l) :: L2 ∧ q <+: v) := by
    rw [g1, e1, t1]
    have hnil : p = [] → ∃ tail dt, TextIs (unlines (texts L1) ++ p) (texts L1 ++ tail) ∧ Lines (0 + L1.length) tail dt ∧
        (dt = [] ∨ (∃ m d, dt = [(m, d)] ∧ Refused d) ∨
          ∃ m k v q L2 l, dt = [(m, .entry false k [] (trim q))] ∧ L = L1 ++ (some (k, v), l) :: L2 ∧ q <+: v) := by
      rintro rfl
      exact ⟨[], [], ⟨by simpa using hnl1, .inl (by simp [unlines])⟩, .nil, .inl rfl⟩
    by_cases hpn : p = []
    · exact hnil hpn
    · rcases t2 with ⟨_, h2⟩ | ⟨x, L2, hL, hpx⟩
      · exact absurd h2 hpn
      · have hxL : x ∈ L := by rw [hL]; simp
        obtain ⟨dt, d1, d2⟩ := tail_cut (e2 x hxL) hpx (fun k v hkv => by
          have := hent x hxL (k, v) hkv
          have hk := hkeys k ((g3 k).1 this.2)
          exact ⟨hk.1, hk.2, hvals k v this.1⟩) (0 + L1.length)
        refine ⟨[p], dt, ⟨?_, .inr ⟨texts L1, p, rfl, hpn, rfl⟩⟩, d1, ?_⟩
        · intro l hl
          rcases List.mem_append.1 hl with hl | hl
          · exact hnl1 l hl
          · rw [List.mem_singleton.1 hl]
            exact fun hh => (e2 x hxL).1 (hpx.subset hh)
        · rcases d2 with d2 | d2 | ⟨m, k, v, q, d2, d3, d4⟩
          · exact .inl d2
          · exact .inr (.inl d2)
          · refine .inr (.inr ⟨m, k, v, q, L2, x.2, d2, ?_, d4⟩)
            rw [hL, ← d3]
  obtain ⟨tail, dt, ht, hd, hdt⟩ := htail
  obtain ⟨es, es1, es2⟩ := lines_tagged L1 0 tail (fun x hx => e2 x (hsub x hx)) hplain
  obtain ⟨tr, r, e', x1, x2, x3⟩ := C20_every_parse hc ht (es2 dt hd) hr0 hp
  have hes : ∀ x ∈ es, x.2 ∈ entries L1 := fun x hx => by rw [← es1]; exact List.mem_map.2 ⟨x, hx, rfl⟩
  obtain ⟨tr', e1', y1, y2, y3, y4, y5⟩ := exec_inv es dt Env.empty e' tr r (fun x hx => (hplain x.2 (hes x hx)).2) (fun _ => rfl) x1
  have hno : tr.any Stmt.isError = false ∧ r = .done [] := by
    cases r with
    | thrown e => simp [Res.outcome] at x2
    | done st =>
      simp only [Res.outcome] at x2
      split at x2
      · rename_i hh; exact ⟨hh.2, by rw [hh.1]⟩
      · cases x2
  have hno' : tr'.any Stmt.isError = false := by
    cases hh : tr'.any Stmt.isError with
    | false => rfl
    | true => rw [y2 hh] at hno; cases hno.1
  have hr2 := hno.2
  subst hr2
  -- the values after the complete lines
  have full : ∀ k v, (k, v) ∈ entries L1 → e1'.val k = some v := by
    intro k v hkv
    refine y4 k v ?_ ?_
    · intro x hx hxk
      have h1 := (hent1 x.2 (hes x hx)).1
      have h2 := (hent1 (k, v) hkv).1
      rw [hxk, h2] at h1
      cases h1; rfl
    · rw [← es1] at hkv
      obtain ⟨x, hx, hxk⟩ := List.mem_map.1 hkv
      exact ⟨x, hx, by rw [hxk]⟩
  have absent : ∀ k, (∀ v, (k, v) ∉ entries L1) → e1'.val k = none := by
    intro k hk
    rw [y5 k]
    · rfl
    · intro x hx hxk
      refine hk x.2.2 ?_
      have := hes x hx
      rw [← hxk]
      exact this
  have show_ : ∀ k, (getValue s'.heap s'.cfg k = match e'.val k with | some v => .ok v | none => .error (.noSuch k)) ∧
      hasValue s'.heap s'.cfg k = .ok (e'.val k).isSome := fun k => ⟨(x3 k).1, (x3 k).2.1⟩
  -- keys before a key of the file come before it
  have before : ∀ (K1 K2 : List Str) (k k' : Str), ks = K1 ++ k :: K2 → k' ∈ ks → strLt k' k = true → k' ∈ K1 := by
    intro K1 K2 k k' hks hk' hlt
    rw [hks] at hk' g2
    rcases List.mem_append.1 hk' with h1 | h1
    · exact h1
    · have h3 := (List.pairwise_append.1 g2).2.1
      rcases List.mem_cons.1 h1 with rfl | h1
      · rw [strLt_irrefl] at hlt; cases hlt
      · have := strLt_trans _ _ _ hlt ((List.pairwise_cons.1 h3).1 _ h1)
        rw [strLt_irrefl] at this; cases this
  have split1 : ∀ k v, (k, v) ∈ entries L1 → ∃ K1 K2, ks = K1 ++ k :: K2 ∧ ∀ x ∈ K1, ∃ v', (x, v') ∈ entries L1 := by
    intro k v hkv
    obtain ⟨E1, E2, hE⟩ := List.append_of_mem hkv
    have hL : ∃ R, entries L = entries L1 ++ R := by
      rcases t2 with ⟨rfl, _⟩ | ⟨y, L2, rfl, _⟩
      · exact ⟨[], by simp⟩
      · exact ⟨entries (y :: L2), by unfold entries; rw [List.filterMap_append]⟩
    obtain ⟨R, hR⟩ := hL
    refine ⟨E1.map Prod.fst, (E2 ++ R).map Prod.fst, by rw [← e3, hR, hE]; simp, ?_⟩
    intro x hx
    obtain ⟨y, hy, rfl⟩ := List.mem_map.1 hx
    exact ⟨y.2, by rw [hE]; simp [hy]⟩
  have fin1 : (∀ k, e'.val k = e1'.val k) → hasValue h b k = .ok true ∧ (∃ v x, getValue h b k = .ok v ∧ x <+: v ∧ getValue s'.heap s'.cfg k = .ok (trim x)) ∧
      ∀ k', hasValue h b k' = .ok true → strLt k' k = true → hasValue s'.heap s'.cfg k' = .ok true ∧ getValue s'.heap s'.cfg k' = getValue h b k' := by
    intro he
    have hk1 : ∃ v, (k, v) ∈ entries L1 := by
      by_cases hh : ∃ v, (k, v) ∈ entries L1
      · exact hh
      · exfalso
        rw [(show_ k).2, he, absent k (fun v hv => hh ⟨v, hv⟩)] at hk
        cases hk
    obtain ⟨v, hv⟩ := hk1
    have gv := hent1 _ hv
    refine ⟨(g3 k).1 gv.2, ⟨v, v, gv.1, List.prefix_refl _, ?_⟩, ?_⟩
    · rw [(show_ k).1, he, full k v hv, htrim k v gv.1]
    · intro k' hk' hlt
      obtain ⟨K1, K2, hks, hK⟩ := split1 k v hv
      obtain ⟨v', hv'⟩ := hK k' (before K1 K2 k k' hks ((g3 k').2 hk') hlt)
      rw [(show_ k').1, (show_ k').2, he, full k' v' hv', (hent1 _ hv').1]
      exact ⟨rfl, rfl⟩
  rcases hdt with rfl | ⟨m, d, rfl, href⟩ | ⟨m, kc, v, q, L2, l, rfl, hL, hq⟩
  · cases y1
    exact fin1 fun _ => rfl
  · exfalso
    rcases href with rfl | rfl | ⟨name, rfl⟩
    · cases y1
      simp [Stmt.isError] at hno'
    · cases y1
    · cases y1 with
      | block h1 => cases h1
  · have hcut : getValue h b kc = .ok v ∧ kc ∈ ks := hent (some (kc, v), l) (by rw [hL]; simp) (kc, v) rfl
    have hval : ∀ k, e'.val k = if k = kc then some (trim q) else e1'.val k := by
      cases y1 with
      | entry hrhs hst hr0 hrest =>
        cases hrest
        obtain ⟨y, hy, hxy⟩ := hrhs
        have hd1 : '$' ∉ trim q := by
          intro hh
          obtain ⟨c1, c2, _, _, c3⟩ := trim_spec q
          have : '$' ∈ q := by rw [c3]; simp [hh]
          exact (hvals _ _ hcut.1).2.2 (hq.subset this)
        have hyv := expands_plain hd1 hy
        simp only [Bool.false_eq_true, if_false] at hxy
        subst hxy
        subst hyv
        have := (stripsTo_iff _ _).1 hst
        rw [trim_trim] at this
        intro k
        simp [Env.apply, blockPrefix, ← this]
    have hks : ks = (entries L1).map Prod.fst ++ kc :: (entries L2).map Prod.fst := by
      rw [← e3, hL]
      unfold entries
      simp [List.filterMap_append, List.filterMap_cons]
    by_cases hkk : k = kc
    · subst hkk
      refine ⟨(g3 k).1 hcut.2, ⟨v, q, hcut.1, hq, ?_⟩, ?_⟩
      · rw [(show_ k).1, hval, if_pos rfl]
      · intro k' hk' hlt
        have hm := before _ _ k k' hks ((g3 k').2 hk') hlt
        obtain ⟨y, hy, rfl⟩ := List.mem_map.1 hm
        have hne' : y.1 ≠ k := by
          intro hh
          rw [hh, strLt_irrefl] at hlt; cases hlt
        rw [(show_ y.1).1, (show_ y.1).2, hval, if_neg hne', full y.1 y.2 hy, (hent1 _ hy).1]
        exact ⟨rfl, rfl⟩
    · have hk1 : ∃ v, (k, v) ∈ entries L1 := by
        by_cases hh : ∃ v, (k, v) ∈ entries L1
        · exact hh
        · exfalso
          rw [(show_ k).2, hval, if_neg hkk, absent k (fun v hv => hh ⟨v, hv⟩)] at hk
          cases hk
      obtain ⟨v1, hv1⟩ := hk1
      have gv := hent1 _ hv1
      refine ⟨(g3 k).1 gv.2, ⟨v1, v1, gv.1, List.prefix_refl _, ?_⟩, ?_⟩
      · rw [(show_ k).1, hval, if_neg hkk, full k v1 hv1, htrim k v1 gv.1]
      · intro k' hk' hlt
        obtain ⟨K1, K2, hks', hK⟩ := split1 k v1 hv1
        obtain ⟨v', hv'⟩ := hK k' (before K1 K2 k k' hks' ((g3 k').2 hk') hlt)
        have hne' : k' ≠ kc := by
          rintro rfl
          rw [hks] at g2
          have h3 := (List.pairwise_append.1 g2).2.2 k (List.mem_map.2 ⟨_, hv1, rfl⟩) k' (by simp)
          have := strLt_trans _ _ _ hlt h3
          rw [strLt_irrefl] at this; cases this
        rw [(show_ k').1, (show_ k').2, hval, if_neg hne', full k' v' hv', (hent1 _ hv').1]
        exact ⟨rfl, rfl⟩

/-! ### Examples -/

/-- `alpha = a` of `alpha = a=b`. -/
def cutWorld : World := (writeUntil (.written 9) rwDisk oldWorld writeDemo 0 (c!"/w.cfg")).1

theorem cut_text : cutWorld.content (c!"/w.cfg") = some (c!"alpha = a") ∧ oldWorld.content (c!"/w.cfg") = some (c!"old = 1\n") ∧
    (writeUntil (.written 9) rwDisk oldWorld writeDemo 0 (c!"/w.cfg")).2 = .ok () := by decide +kernel

theorem cut_read : (readFileF 40 cutWorld [] [] (c!"/w.cfg")).map (fun x => x.2.toOption.map fun b => (getValue x.1 b (c!"alpha")).toOption) = some (some (some (c!"a"))) := by
  decide +kernel

/-- C285 is false of the code: a value is cut off, the other entries are missing, and the file is read without complaint. -/
theorem C285_refuted : ¬ C285_statement := by
  intro hst
  obtain ⟨h1, h2, h3⟩ := writeDemo_plain
  have hr := cut_read
  cases hf : readFileF 40 cutWorld [] [] (c!"/w.cfg") with
  | none => rw [hf] at hr; cases hr
  | some x =>
    obtain ⟨h', o⟩ := x
    cases o with
    | error e => rw [hf] at hr; simp [Except.toOption] at hr
    | ok b' =>
      rw [hf] at hr
      rcases hst (.written 9) rwDisk oldWorld cutWorld writeDemo 0 (c!"/w.cfg") [] (.ok ()) ⟨_, rfl⟩ writeDemo_root h1 h2 h3
          (by rw [← cut_text.2.2]; rfl) with h4 | h4
      · rw [cut_text.1, cut_text.2.1] at h4
        revert h4; decide
      · have h5 := h4 h' b' ⟨40, hf⟩ (c!"alpha")
        have e : getValue writeDemo 0 (c!"alpha") = .ok (c!"a=b") := by decide +kernel
        rw [e] at h5
        simp only [Option.map_some, Except.toOption, h5] at hr
        revert hr; decide

/-- A write cut after the second entry is read. -/
def partWorld : World := { content := fun f => if f = c!"/w.cfg" then some ((writeConfig writeDemo 0).1.take 48) else none }

theorem part_some : (parseF 40 partWorld (fresh [] []) (c!"/w.cfg")).isSome = true := by decide +kernel

example : ∃ s', Parses partWorld (fresh [] []) (c!"/w.cfg") s' (.ok ()) ∧ hasValue s'.heap s'.cfg (c!"beta:x") = .ok true ∧
    getValue s'.heap s'.cfg (c!"alpha") = getValue writeDemo 0 (c!"alpha") ∧ (∃ x, x <+: c!"7 up" ∧ getValue s'.heap s'.cfg (c!"beta:x") = .ok (trim x)) := by
  have h := parses_get part_some
  have e : ((parseF 40 partWorld (fresh [] []) (c!"/w.cfg")).get part_some).2 = .ok () := by decide +kernel
  rw [e] at h
  have hb : hasValue ((parseF 40 partWorld (fresh [] []) (c!"/w.cfg")).get part_some).1.heap ((parseF 40 partWorld (fresh [] []) (c!"/w.cfg")).get part_some).1.cfg (c!"beta:x") = .ok true := by
    decide +kernel
  obtain ⟨h1, h2, h3⟩ := writeDemo_plain
  obtain ⟨_, ⟨v, x, q1, q2, q3⟩, q4⟩ := C285_read_partial (h := writeDemo) ⟨_, rfl⟩ writeDemo_root (fun k hk => ⟨h1 k hk, by
    rcases writeDemo_keys k hk with rfl | rfl | rfl <;> decide⟩) h2 h3 (k0 := c!"alpha") (by decide +kernel) (n := 48) (w := partWorld) (by simp [partWorld]) [] nil_reachable h _ hb
  refine ⟨_, h, hb, (q4 (c!"alpha") (by decide +kernel) (by decide +kernel)).2, x, ?_, q3⟩
  have e : getValue writeDemo 0 (c!"beta:x") = .ok (c!"7 up") := by decide +kernel
  rw [e] at q1
  cases q1
  exact q2

end Vital.Parser.Crash
