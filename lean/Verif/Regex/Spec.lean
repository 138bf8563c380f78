/-
  What expressions mean.  The text from a place to its end stands for the place; `n` is the length of the whole text.
-/
import Verif.Regex.Asm

namespace Vital.Regex

/-- The language of a tree: from the place `u` it can match up to the place `v`. -/
inductive Lang (n : Nat) : Re → List Nat → List Nat → Prop where
  | bol {u} : u.length = n → Lang n .bol u u
  | eol : Lang n .eol [] []
  | any {c v} : Lang n .any (c :: v) v
  | set {neg cs c v} : (cs.contains c = !neg) → Lang n (.set neg cs) (c :: v) v
  | lit {s v} : Lang n (.lit s) (s ++ v) v
  | nothing {u} : Lang n .nothing u u
  | group {no r u v} : Lang n r u v → Lang n (.group no r) u v
  | star0 {r u} : Lang n (.star r) u u
  | star {r u v w} : Lang n r u v → Lang n (.star r) v w → Lang n (.star r) u w
  | plus {r u v w} : Lang n r u v → Lang n (.star r) v w → Lang n (.plus r) u w
  | opt0 {r u} : Lang n (.opt r) u u
  | opt {r u v} : Lang n r u v → Lang n (.opt r) u v
  | cat {a b u v w} : Lang n a u v → Lang n b v w → Lang n (.cat a b) u w
  | last {a u v} : Lang n a u v → Lang n (.last a) u v
  | altl {a b u v} : Lang n a u v → Lang n (.alt a b) u v
  | altr {a b u v} : Lang n b u v → Lang n (.alt a b) u v

/-- A group was entered or left at a position of the text. -/
inductive Evt where
  | opn (no pos : Nat)
  | cls (no pos : Nat)
deriving DecidableEq

/-- A way to match: where it ends and the groups entered and left. -/
abbrev Out := List Nat × List Evt

/-- First one, then the other. -/
def andThen (l : List Out) (g : List Nat → List Out) : List Out :=
  l.flatMap (fun p => (g p.1).map (fun q => (q.1, p.2 ++ q.2)))

/-- Repetitions, at most the given number of them, more before fewer. -/
def rep (f : List Nat → List Out) : Nat → List Nat → List Out
  | 0, u => [(u, [])]
  | k + 1, u => andThen (f u) (rep f k) ++ [(u, [])]

/-- All ways to match from the place `u`, the preferred ones first: earlier alternatives before later ones, more repetitions
    before fewer. -/
def outs (n : Nat) : Re → List Nat → List Out
  | .bol, u => if u.length = n then [(u, [])] else []
  | .eol, u => if u = [] then [(u, [])] else []
  | .any, u => match u with | [] => [] | _ :: v => [(v, [])]
  | .set neg cs, u => match u with | [] => [] | c :: v => if cs.contains c = !neg then [(v, [])] else []
  | .lit s, u => if s.isPrefixOf u then [(u.drop s.length, [])] else []
  | .nothing, u => [(u, [])]
  | .group no r, u => (outs n r u).map (fun p => (p.1, .opn no (n - u.length) :: p.2 ++ [.cls no (n - p.1.length)]))
  | .star r, u => rep (outs n r) u.length u
  | .plus r, u => andThen (outs n r u) (fun v => rep (outs n r) v.length v)
  | .opt r, u => outs n r u ++ [(u, [])]
  | .cat a b, u => andThen (outs n a u) (outs n b)
  | .last a, u => outs n a u
  | .alt a b, u => outs n a u ++ outs n b u

/-! ### The ways to match are the language -/

theorem mem_andThen {l : List Out} {g : List Nat → List Out} {x : Out} :
    x ∈ andThen l g ↔ ∃ p ∈ l, ∃ q ∈ g p.1, x = (q.1, p.2 ++ q.2) := by
  simp only [andThen, List.mem_flatMap, List.mem_map]
  constructor
  · rintro ⟨p, hp, q, hq, rfl⟩; exact ⟨p, hp, q, hq, rfl⟩
  · rintro ⟨p, hp, q, hq, rfl⟩; exact ⟨p, hp, q, hq, rfl⟩

theorem lang_suffix {n : Nat} {r : Re} {u v : List Nat} (h : Lang n r u v) : v <:+ u := by
  induction h with
  | any => exact List.suffix_cons _ _
  | set _ => exact List.suffix_cons _ _
  | lit => exact List.suffix_append _ _
  | group _ ih => exact ih
  | star _ _ ih1 ih2 => exact ih2.trans ih1
  | plus _ _ ih1 ih2 => exact ih2.trans ih1
  | opt _ ih => exact ih
  | cat _ _ ih1 ih2 => exact ih2.trans ih1
  | last _ ih => exact ih
  | altl _ ih => exact ih
  | altr _ ih => exact ih
  | _ => exact List.suffix_refl _

theorem lang_width {n : Nat} {r : Re} {u v : List Nat} (h : Lang n r u v) : r.wf → r.width = true → v.length < u.length := by
  induction h with
  | any => intro _ _; simp
  | set _ => intro _ _; simp
  | lit => intro hw _; have := List.length_pos_iff.mpr hw.1; simp; omega
  | group _ ih => intro hw h; exact ih hw.2.2.2 h
  | plus h1 h2 ih1 _ =>
    intro hw _
    have := ih1 hw.2.2 hw.2.1
    have := (lang_suffix h2).length_le
    omega
  | cat h1 h2 ih1 ih2 =>
    intro hw h
    have l1 := (lang_suffix h1).length_le
    have l2 := (lang_suffix h2).length_le
    simp only [Re.width, Bool.or_eq_true] at h
    rcases h with h | h
    · have := ih1 hw.2.2.1 h; omega
    · have := ih2 hw.2.2.2 h; omega
  | last _ ih => intro hw h; exact ih hw.2 h
  | altl _ ih => intro hw h; simp only [Re.width, Bool.and_eq_true] at h; exact ih hw.2.2.1 h.1
  | altr _ ih => intro hw h; simp only [Re.width, Bool.and_eq_true] at h; exact ih hw.2.2.2 h.2
  | _ => intro _ h; simp [Re.width] at h

theorem rep_lang {n : Nat} {r : Re} (h : ∀ u p, p ∈ outs n r u → Lang n r u p.1) : ∀ k u p, p ∈ rep (outs n r) k u → Lang n (.star r) u p.1 := by
  intro k
  induction k with
  | zero => intro u p hp; simp [rep] at hp; subst hp; exact .star0
  | succ k ih =>
    intro u p hp
    simp only [rep, List.mem_append, List.mem_singleton, mem_andThen] at hp
    rcases hp with ⟨a, ha, b, hb, rfl⟩ | rfl
    · exact .star (h _ _ ha) (ih _ b hb)
    · exact .star0

theorem outs_lang {n : Nat} (r : Re) : ∀ u p, p ∈ outs n r u → Lang n r u p.1 := by
  induction r with
  | bol =>
    intro u p h; simp only [outs] at h
    split at h
    · rename_i hu; simp at h; subst h; exact .bol hu
    · simp at h
  | eol =>
    intro u p h; simp only [outs] at h
    split at h
    · rename_i hu; simp at h; subst h; subst hu; exact .eol
    · simp at h
  | any =>
    intro u p h
    cases u with
    | nil => simp [outs] at h
    | cons c v => simp [outs] at h; subst h; exact .any
  | set neg cs =>
    intro u p h
    cases u with
    | nil => simp [outs] at h
    | cons c v =>
      simp only [outs] at h
      split at h
      · rename_i hc; simp at h; subst h; exact .set hc
      · simp at h
  | lit s =>
    intro u p h
    simp only [outs] at h
    split at h
    · rename_i hp
      simp at h; subst h
      obtain ⟨t, rfl⟩ := List.isPrefixOf_iff_prefix.mp hp
      simp; exact .lit
    · simp at h
  | nothing => intro u p h; simp [outs] at h; subst h; exact .nothing
  | group no r ih =>
    intro u p h
    simp only [outs, List.mem_map] at h
    obtain ⟨q, hq, rfl⟩ := h
    exact .group (ih _ q hq)
  | star r ih => intro u p h; exact rep_lang ih _ _ _ h
  | plus r ih =>
    intro u p h
    simp only [outs, mem_andThen] at h
    obtain ⟨a, ha, b, hb, rfl⟩ := h
    exact .plus (ih _ _ ha) (rep_lang ih _ _ b hb)
  | opt r ih =>
    intro u p h
    simp only [outs, List.mem_append, List.mem_singleton] at h
    rcases h with h | rfl
    · exact .opt (ih _ _ h)
    · exact .opt0
  | cat a b iha ihb =>
    intro u p h
    simp only [outs, mem_andThen] at h
    obtain ⟨x, hx, y, hy, rfl⟩ := h
    exact .cat (iha _ _ hx) (ihb _ y hy)
  | last a ih => intro u p h; exact .last (ih _ _ h)
  | alt a b iha ihb =>
    intro u p h
    simp only [outs, List.mem_append] at h
    rcases h with h | h
    · exact .altl (iha _ _ h)
    · exact .altr (ihb _ _ h)

theorem andThen_congr {l : List Out} {g h : List Nat → List Out} (e : ∀ p ∈ l, g p.1 = h p.1) : andThen l g = andThen l h := by
  induction l with
  | nil => rfl
  | cons p l ih =>
    simp only [andThen, List.flatMap_cons] at ih ⊢
    rw [e p (by simp), ih (fun q hq => e q (by simp [hq]))]

theorem rep_eq {f : List Nat → List Out} (hf : ∀ u p, p ∈ f u → p.1.length < u.length) :
    ∀ k j u, u.length ≤ k → u.length ≤ j → rep f k u = rep f j u := by
  have hz : ∀ u k, u.length = 0 → rep f k u = [(u, [])] := by
    intro u k hu
    have : f u = [] := by
      cases hfu : f u with
      | nil => rfl
      | cons p l => have := hf u p (by simp [hfu]); omega
    cases k <;> simp [rep, this, andThen]
  intro k
  induction k with
  | zero => intro j u hk hj; rw [hz u 0 (by omega), hz u j (by omega)]
  | succ k ih =>
    intro j u hk hj
    cases j with
    | zero => rw [hz u _ (by omega), hz u 0 (by omega)]
    | succ j =>
      simp only [rep]
      congr 1
      apply andThen_congr
      intro p hp
      have := hf u p hp
      exact ih j p.1 (by omega) (by omega)

theorem outs_width {n : Nat} {r : Re} (hw : r.wf) (h : r.width = true) : ∀ u p, p ∈ outs n r u → p.1.length < u.length :=
  fun u p hp => lang_width (outs_lang r u p hp) hw h

/-- Once more, or not at all. -/
theorem star_unfold {n : Nat} {r : Re} (hw : r.wf) (h : r.width = true) (u : List Nat) :
    outs n (.star r) u = andThen (outs n r u) (outs n (.star r)) ++ [(u, [])] := by
  have hf := outs_width (n := n) hw h
  simp only [outs]
  rw [rep_eq hf u.length (u.length + 1) u (Nat.le_refl _) (by omega)]
  simp only [rep]
  congr 1
  apply andThen_congr
  intro p hp
  have := hf u p hp
  exact rep_eq hf _ _ _ (by omega) (Nat.le_refl _)

theorem lang_outs {n : Nat} {r : Re} {u v : List Nat} (h : Lang n r u v) : r.wf → ∃ tr, (v, tr) ∈ outs n r u := by
  induction h with
  | bol hu => intro _; exact ⟨[], by simp [outs, hu]⟩
  | eol => intro _; exact ⟨[], by simp [outs]⟩
  | any => intro _; exact ⟨[], by simp [outs]⟩
  | set hc => intro _; exact ⟨[], by simp only [outs, hc, if_true]; simp⟩
  | lit =>
    rename_i s v
    intro _
    refine ⟨[], ?_⟩
    have : s.isPrefixOf (s ++ v) = true := List.isPrefixOf_iff_prefix.mpr (List.prefix_append _ _)
    simp [outs, this]
  | nothing => intro _; exact ⟨[], by simp [outs]⟩
  | group _ ih =>
    intro hw
    obtain ⟨tr, ht⟩ := ih hw.2.2.2
    exact ⟨_, by simp only [outs, List.mem_map]; exact ⟨_, ht, rfl⟩⟩
  | star0 =>
    intro hw
    rw [star_unfold hw.2.2 hw.2.1]
    exact ⟨[], by simp⟩
  | star _ _ ih1 ih2 =>
    intro hw
    obtain ⟨t1, h1⟩ := ih1 hw.2.2
    obtain ⟨t2, h2⟩ := ih2 hw
    rw [star_unfold hw.2.2 hw.2.1]
    exact ⟨t1 ++ t2, List.mem_append_left _ (mem_andThen.mpr ⟨_, h1, _, h2, rfl⟩)⟩
  | plus _ _ ih1 ih2 =>
    intro hw
    obtain ⟨t1, h1⟩ := ih1 hw.2.2
    obtain ⟨t2, h2⟩ := ih2 hw
    exact ⟨t1 ++ t2, mem_andThen.mpr ⟨_, h1, _, h2, rfl⟩⟩
  | opt0 => intro _; exact ⟨[], by simp [outs]⟩
  | opt _ ih =>
    intro hw
    obtain ⟨t, h⟩ := ih hw.2
    exact ⟨t, List.mem_append_left _ h⟩
  | cat _ _ ih1 ih2 =>
    intro hw
    obtain ⟨t1, h1⟩ := ih1 hw.2.2.1
    obtain ⟨t2, h2⟩ := ih2 hw.2.2.2
    exact ⟨t1 ++ t2, mem_andThen.mpr ⟨_, h1, _, h2, rfl⟩⟩
  | last _ ih =>
    intro hw
    obtain ⟨t, h⟩ := ih hw.2
    exact ⟨t, h⟩
  | altl _ ih =>
    intro hw
    obtain ⟨t, h⟩ := ih hw.2.2.1
    exact ⟨t, List.mem_append_left _ h⟩
  | altr _ ih =>
    intro hw
    obtain ⟨t, h⟩ := ih hw.2.2.2
    exact ⟨t, List.mem_append_right _ h⟩

/-- The ways to match are exactly the language. -/
theorem outs_iff {n : Nat} {r : Re} (hw : r.wf) (u v : List Nat) : (∃ tr, (v, tr) ∈ outs n r u) ↔ Lang n r u v :=
  ⟨fun ⟨_, h⟩ => outs_lang r u _ h, fun h => lang_outs h hw⟩

end Vital.Regex
