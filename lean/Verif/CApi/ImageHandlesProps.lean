import Verif.CApi.ImageHandles
import Mathlib.Tactic.ByContra
import Mathlib.Tactic.Tauto
/-
  C143: the C interface to images and image containers refines its specification.
-/
namespace Vital.CApi.Imgs
open Vital Vital.CApi Vital.Image

/-! ### Counting the owners of a buffer -/

/-- `cnt` counts the views in `img` and `con`, listed in `H`. -/
def Counts (cnt : Nat → Nat) (img con : Nat → Option Img) : Prop :=
  ∃ H : List (Bool × Nat × Img), H.Nodup ∧ (∀ q g, (false, q, g) ∈ H ↔ img q = some g) ∧ (∀ c g, (true, c, g) ∈ H ↔ con c = some g) ∧
    ∀ b, cnt b = H.countP (fun x => decide (x.2.2.data = some b))

def addC (cnt : Nat → Nat) (g : Img) : Nat → Nat := fun b => cnt b + if g.data = some b then 1 else 0
def subC (cnt : Nat → Nat) (g : Img) : Nat → Nat := fun b => cnt b - if g.data = some b then 1 else 0

theorem put_self {α : Type} (f : Nat → α) (a : Nat) (v : α) : put f a v a = v := by simp [put]
theorem put_ne {α : Type} (f : Nat → α) {a x : Nat} (v : α) (h : x ≠ a) : put f a v x = f x := by simp [put, h]

theorem put_some_iff {f : Nat → Option Img} {a x : Nat} {g h : Img} (ha : f a = none) : put f a (some g) x = some h ↔ (x = a ∧ h = g) ∨ f x = some h := by
  by_cases e : x = a
  · subst e; rw [put_self, ha]; simp [eq_comm]
  · rw [put_ne _ _ e]; simp [e]

theorem put_none_iff {f : Nat → Option Img} {a x : Nat} {h : Img} : put f a none x = some h ↔ x ≠ a ∧ f x = some h := by
  by_cases e : x = a
  · subst e; rw [put_self]; simp
  · rw [put_ne _ _ e]; simp [e]

theorem counts_addImg {cnt : Nat → Nat} {img con : Nat → Option Img} (h : Counts cnt img con) {a : Nat} (ha : img a = none) (g : Img) :
    Counts (addC cnt g) (put img a (some g)) con := by
  obtain ⟨H, h1, h2, h3, h4⟩ := h
  refine ⟨(false, a, g) :: H, ?_, ?_, ?_, ?_⟩
  · refine List.nodup_cons.2 ⟨?_, h1⟩
    rw [h2, ha]; simp
  · intro q g'
    rw [List.mem_cons, h2, put_some_iff ha]; simp
  · intro c g'
    rw [List.mem_cons, h3]; simp
  · intro b
    rw [List.countP_cons, ← h4 b]
    simp [addC]

theorem counts_addCon {cnt : Nat → Nat} {img con : Nat → Option Img} (h : Counts cnt img con) {a : Nat} (ha : con a = none) (g : Img) :
    Counts (addC cnt g) img (put con a (some g)) := by
  obtain ⟨H, h1, h2, h3, h4⟩ := h
  refine ⟨(true, a, g) :: H, ?_, ?_, ?_, ?_⟩
  · refine List.nodup_cons.2 ⟨?_, h1⟩
    rw [h3, ha]; simp
  · intro q g'
    rw [List.mem_cons, h2]; simp
  · intro c g'
    rw [List.mem_cons, h3, put_some_iff ha]; simp
  · intro b
    rw [List.countP_cons, ← h4 b]
    simp [addC]

theorem countP_erase_mem {α : Type} [BEq α] [LawfulBEq α] (P : α → Bool) {x : α} {l : List α} (h : x ∈ l) : (l.erase x).countP P = l.countP P - (if P x then 1 else 0) := by
  have := (List.perm_cons_erase h).countP_eq P
  rw [List.countP_cons] at this
  omega

theorem counts_delImg {cnt : Nat → Nat} {img con : Nat → Option Img} (h : Counts cnt img con) {a : Nat} {g : Img} (ha : img a = some g) :
    Counts (subC cnt g) (put img a none) con := by
  obtain ⟨H, h1, h2, h3, h4⟩ := h
  have hm : (false, a, g) ∈ H := (h2 a g).2 ha
  refine ⟨H.erase (false, a, g), h1.erase _, ?_, ?_, ?_⟩
  · intro q g'
    rw [List.Nodup.mem_erase_iff h1, h2, put_none_iff]
    constructor
    · rintro ⟨hne, hq⟩
      refine ⟨?_, hq⟩
      rintro rfl
      rw [ha] at hq; cases hq; exact hne rfl
    · rintro ⟨hne, hq⟩
      exact ⟨fun e => hne (by cases e; rfl), hq⟩
  · intro c g'
    rw [List.Nodup.mem_erase_iff h1, h3]; simp
  · intro b
    rw [countP_erase_mem _ hm, ← h4 b]
    simp [subC]

theorem counts_delCon {cnt : Nat → Nat} {img con : Nat → Option Img} (h : Counts cnt img con) {a : Nat} {g : Img} (ha : con a = some g) :
    Counts (subC cnt g) img (put con a none) := by
  obtain ⟨H, h1, h2, h3, h4⟩ := h
  have hm : (true, a, g) ∈ H := (h3 a g).2 ha
  refine ⟨H.erase (true, a, g), h1.erase _, ?_, ?_, ?_⟩
  · intro q g'
    rw [List.Nodup.mem_erase_iff h1, h2]; simp
  · intro c g'
    rw [List.Nodup.mem_erase_iff h1, h3, put_none_iff]
    constructor
    · rintro ⟨hne, hq⟩
      refine ⟨?_, hq⟩
      rintro rfl
      rw [ha] at hq; cases hq; exact hne rfl
    · rintro ⟨hne, hq⟩
      exact ⟨fun e => hne (by cases e; rfl), hq⟩
  · intro b
    rw [countP_erase_mem _ hm, ← h4 b]
    simp [subC]

theorem counts_pos {cnt : Nat → Nat} {img con : Nat → Option Img} (h : Counts cnt img con) (b : Nat) :
    cnt b ≠ 0 ↔ (∃ q g, img q = some g ∧ g.data = some b) ∨ (∃ c g, con c = some g ∧ g.data = some b) := by
  obtain ⟨H, h1, h2, h3, h4⟩ := h
  rw [h4 b, ← Nat.pos_iff_ne_zero, List.countP_pos_iff]
  constructor
  · rintro ⟨⟨t, q, g⟩, hm, hd⟩
    simp only [decide_eq_true_eq] at hd
    cases t
    · exact Or.inl ⟨q, g, (h2 q g).1 hm, hd⟩
    · exact Or.inr ⟨q, g, (h3 q g).1 hm, hd⟩
  · rintro (⟨q, g, hm, hd⟩ | ⟨c, g, hm, hd⟩)
    · exact ⟨_, (h2 q g).2 hm, by simpa using hd⟩
    · exact ⟨_, (h3 c g).2 hm, by simpa using hd⟩

/-! ### The relation between code and specification -/

/-- A view that a handle may have. -/
structure Good (p : Prog) (g : Img) : Prop where
  inside : p.Inside g
  fp : ∀ b, g.data = some b → g.fp.1 = b ∧ b < p.next
  nodata : g.data = none → ∀ i j k, ¬ IsPixel g i j k

structure R (s : St) (p : Prog) : Prop where
  img : s.imgs = p.img
  con : s.cons = p.con
  img0 : p.img 0 = none
  cache : ∀ c, c ≠ 0 → Rep s.cache c (p.refs c) (if p.refs c = 0 then none else some ⟨c, 0⟩)
  refs0 : p.refs 0 = 0
  cref : ∀ c, p.refs c ≠ 0 ↔ (p.con c).isSome
  next : s.mem.next = p.next
  counts : Counts s.cnt p.img p.con
  size : ∀ b, s.mem.size b = if s.cnt b = 0 then 0 else p.len b
  val : s.mem.val = p.px
  goodI : ∀ q g, p.img q = some g → Good p g
  goodC : ∀ c g, p.con c = some g → Good p g

theorem r_init : R St.init Prog.init := by
  refine ⟨rfl, rfl, rfl, ?_, rfl, ?_, rfl, ?_, ?_, rfl, ?_, ?_⟩
  · intro c _; exact ⟨rfl, rfl, by simp [Prog.init]⟩
  · intro c; simp [Prog.init]
  · exact ⟨[], by simp, by simp [Prog.init], by simp [Prog.init], by simp [St.init]⟩
  · intro b; rfl
  · intro q g h; simp [Prog.init] at h
  · intro q g h; simp [Prog.init] at h

theorem retain_eq (s : St) (g : Img) : retain s g = { s with cnt := addC s.cnt g } := by
  unfold retain
  cases hd : g.data with
  | none =>
    have : addC s.cnt g = s.cnt := by funext x; simp [addC, hd]
    rw [this]
  | some b =>
    simp only
    congr 1
    funext x
    by_cases e : x = b
    · subst e; simp [put, addC, hd]
    · simp [put, addC, hd, e, Ne.symm e]

theorem release_spec (s : St) (g : Img) (b : Nat) : (release s g).cnt = subC s.cnt g ∧ (release s g).imgs = s.imgs ∧ (release s g).cons = s.cons ∧
    (release s g).cache = s.cache ∧ (release s g).mem.next = s.mem.next ∧ (release s g).mem.val = s.mem.val ∧
    (release s g).mem.size b = if g.data = some b ∧ s.cnt b - 1 = 0 then 0 else s.mem.size b := by
  unfold release
  cases hd : g.data with
  | none =>
    refine ⟨?_, rfl, rfl, rfl, rfl, rfl, ?_⟩
    · funext x; simp [subC, hd]
    · simp
  | some c =>
    refine ⟨?_, rfl, rfl, rfl, ?_, ?_, ?_⟩
    · funext x
      by_cases e : x = c
      · subst e; simp [put, subC, hd]
      · simp [put, subC, hd, e, Ne.symm e]
    · simp only; split <;> rfl
    · simp only; split <;> rfl
    · simp only [Option.some.injEq]
      by_cases hz : s.cnt c - 1 = 0
      · rw [if_pos hz]
        by_cases e : b = c
        · subst e; simp [put, hz]
        · simp [put, e, Ne.symm e]
      · rw [if_neg hz]
        by_cases e : c = b
        · subst e; simp [hz]
        · simp [e]

/-- Any release that fits the counts keeps sizes right. -/
theorem size_release {s : St} {p : Prog} (hs : ∀ b, s.mem.size b = if s.cnt b = 0 then 0 else p.len b) (g : Img) (b : Nat) :
    (release s g).mem.size b = if (release s g).cnt b = 0 then 0 else p.len b := by
  obtain ⟨h1, -, -, -, -, -, h7⟩ := release_spec s g b
  rw [h7, h1, hs b]
  unfold subC
  by_cases hd : g.data = some b
  · simp only [hd, true_and, if_true]
    by_cases hz : s.cnt b - 1 = 0
    · simp [hz]
    · have : s.cnt b ≠ 0 := by omega
      simp [hz, this]
  · simp [hd]

theorem good_share {p : Prog} {g : Img} (h : Good p g) : Good p (share g) := h

/-- Adding a view of a buffer that is already viewed, or of none, to the image handles. -/
theorem r_addImg {s : St} {p : Prog} (h : R s p) {a : Nat} (ha : Legal p a) {g : Img} (hg : Good p g) (hv : ∀ b, g.data = some b → s.cnt b ≠ 0) :
    R { s with cnt := addC s.cnt g, imgs := put s.imgs a (some g) } (p.addImg a g).1 := by
  obtain ⟨ha0, hai, hac⟩ := ha
  refine ⟨?_, h.con, ?_, h.cache, h.refs0, h.cref, h.next, counts_addImg h.counts hai g, ?_, h.val, ?_, fun c g' hc => ⟨(h.goodC c g' hc).inside, (h.goodC c g' hc).fp, (h.goodC c g' hc).nodata⟩⟩
  · simp only [Prog.addImg, h.img]
  · simp only [Prog.addImg]
    rw [put_ne _ _ (fun e => ha0 e.symm)]
    exact h.img0
  · intro b
    show s.mem.size b = if addC s.cnt g b = 0 then 0 else p.len b
    rw [h.size b]
    unfold addC
    by_cases hd : g.data = some b
    · have := hv b hd
      simp [hd, this]
    · simp [hd]
  · intro q g' hq
    rcases (put_some_iff hai).1 hq with ⟨-, rfl⟩ | hq
    · exact ⟨hg.inside, hg.fp, hg.nodata⟩
    · exact ⟨(h.goodI q g' hq).inside, (h.goodI q g' hq).fp, (h.goodI q g' hq).nodata⟩

theorem rep_other {c : Cache} {x y n : Nat} {k : Option Sptr} (hy : y ≠ 0) (h : Rep c y n k) (hne : x ≠ y) (t : Nat) : Rep (CApi.store c ⟨x, t⟩).1 y n k := by
  have := rep_step hy h (.store ⟨x, t⟩)
  simpa [refs, kept, hne, step] using this

theorem store_ok (c : Cache) {x : Nat} (hx : x ≠ 0) (t : Nat) : (CApi.store c ⟨x, t⟩) = ((CApi.store c ⟨x, t⟩).1, .ok ()) := by
  unfold CApi.store
  simp only [hx, if_false]
  split <;> rfl

/-- Adding a container, after the counts were raised. -/
theorem r_addCon {s : St} {p : Prog} (h : R s p) {a : Nat} (ha : Legal p a) {g : Img} (hg : Good p g) (hv : ∀ b, g.data = some b → s.cnt b ≠ 0) :
    ∃ s', storeNew { s with cnt := addC s.cnt g } a g = some (s', .handle a) ∧ R s' (p.addCon a g).1 := by
  obtain ⟨ha0, hai, hac⟩ := ha
  unfold storeNew
  simp only
  rw [store_ok s.cache ha0 0]
  refine ⟨_, rfl, ?_⟩
  have hra : p.refs a = 0 := by
    by_contra hc
    have := (h.cref a).1 hc
    rw [hac] at this; simp at this
  refine ⟨h.img, ?_, h.img0, ?_, ?_, ?_, h.next, counts_addCon h.counts hac g, ?_, h.val, fun q g' hc => ⟨(h.goodI q g' hc).inside, (h.goodI q g' hc).fp, (h.goodI q g' hc).nodata⟩, ?_⟩
  · simp only [Prog.addCon, h.con]
  · intro c hc
    show Rep _ c (put p.refs a 1 c) (if put p.refs a 1 c = 0 then none else some ⟨c, 0⟩)
    by_cases e : c = a
    · subst e
      have := rep_step hc (h.cache c hc) (.store ⟨c, 0⟩)
      rw [hra] at this
      simpa [refs, kept, step, put] using this
    · rw [put_ne _ _ e]
      exact rep_other hc (h.cache c hc) (fun e' => e e'.symm) 0
  · simp only [Prog.addCon]
    rw [put_ne _ _ (fun e => ha0 e.symm)]; exact h.refs0
  · intro c
    simp only [Prog.addCon]
    by_cases e : c = a
    · subst e; simp [put]
    · rw [put_ne _ _ e, put_ne _ _ e]; exact h.cref c
  · intro b
    show s.mem.size b = if addC s.cnt g b = 0 then 0 else p.len b
    rw [h.size b]
    unfold addC
    by_cases hd : g.data = some b
    · have := hv b hd
      simp [hd, this]
    · simp [hd]
  · intro q g' hq
    rcases (put_some_iff hac).1 hq with ⟨-, rfl⟩ | hq
    · exact ⟨hg.inside, hg.fp, hg.nodata⟩
    · exact ⟨(h.goodC q g' hq).inside, (h.goodC q g' hq).fp, (h.goodC q g' hq).nodata⟩

theorem viewed_img {s : St} {p : Prog} (h : R s p) {q : Nat} {g : Img} (hq : p.img q = some g) : ∀ b, g.data = some b → s.cnt b ≠ 0 :=
  fun b hb => (counts_pos h.counts b).2 (Or.inl ⟨q, g, hq, hb⟩)

theorem viewed_con {s : St} {p : Prog} (h : R s p) {q : Nat} {g : Img} (hq : p.con q = some g) : ∀ b, g.data = some b → s.cnt b ≠ 0 :=
  fun b hb => (counts_pos h.counts b).2 (Or.inr ⟨q, g, hq, hb⟩)

/-- Reading the image at a live pointer. -/
theorem use_live {s : St} {p : Prog} (h : R s p) {q : Nat} {g : Img} (hq : p.img q = some g) (f : Img → Option (St × Res)) : s.useImg q f = f g := by
  have : q ≠ 0 := by rintro rfl; rw [h.img0] at hq; cases hq
  unfold St.useImg
  rw [if_neg this, h.img, hq]; rfl

theorem con0 {s : St} {p : Prog} (h : R s p) : p.con 0 = none := by
  have := h.cref 0
  rw [h.refs0] at this
  simpa using this

theorem useCon_eq {s : St} {p : Prog} (h : R s p) (c : Nat) (dflt : Res) (f : Img → Option (St × Res)) :
    s.useCon c dflt f = match p.con c with | some g => f g | none => some (s, dflt) := by
  unfold St.useCon
  by_cases hc : c = 0
  · subst hc
    rw [con0 h]; rfl
  · obtain ⟨h1, -, -⟩ := h.cache c hc
    unfold get
    rw [if_neg hc, h1]
    by_cases hr : p.refs c = 0
    · have : p.con c = none := by
        have := h.cref c
        simpa [hr] using this
      simp [hr, this]
    · obtain ⟨g, hg⟩ := Option.isSome_iff_exists.1 ((h.cref c).1 hr)
      simp [hr, hg, h.con]

/-- A valid view reads its pixels. -/
theorem good_valid {s : St} {p : Prog} (h : R s p) {g : Img} (hg : Good p g) (hv : ∀ b, g.data = some b → s.cnt b ≠ 0) : Valid s.mem g := by
  intro i j k hp
  cases hd : g.data with
  | none => exact absurd hp (hg.nodata hd i j k)
  | some b =>
    have h1 := hg.inside i j k hp
    have h2 : (addr g i j k).1 = b := (hg.fp b hd).1
    refine ⟨h1.1, ?_⟩
    rw [h2] at h1
    show (addr g i j k).2 < ((s.mem.size (addr g i j k).1 : Nat) : Int)
    rw [h2, h.size b, if_neg (hv b hd)]
    exact h1.2

theorem imgSize_eq {s : St} {p : Prog} (h : R s p) {g : Img} (hv : ∀ b, g.data = some b → s.cnt b ≠ 0) : imgSize s g = p.bytes g := by
  unfold imgSize Prog.bytes
  cases hd : g.data with
  | none => rfl
  | some b => simp only; rw [h.size b, if_neg (hv b hd)]

theorem mkImage_eq (m : Mem Byte) (u : Int → Byte) (w h d : Nat) (il : Bool) (hlt : w * h * d < sizeMod) :
    mkImage m u w h d il = (⟨m.next + 1, put m.size m.next (w * h * d), put m.val m.next u⟩, freshView m.next w h d il) := by
  have e1 : (alloc m (w * h * d % sizeMod) u) = (⟨m.next + 1, put m.size m.next (w * h * d), put m.val m.next u⟩, m.next) := by
    unfold alloc
    rw [Nat.mod_eq_of_lt hlt]
    congr 1
    have : (fun b o => if b = m.next then u o else m.val b o) = put m.val m.next u := by
      funext b o
      unfold put; split <;> rfl
    rw [this]; rfl
  unfold mkImage
  rw [e1]
  cases il <;> rfl

theorem freshView_data (b w h d : Nat) (il : Bool) : (freshView b w h d il).data = some b ∧ (freshView b w h d il).fp = (b, 0) ∧
    (freshView b w h d il).w = w ∧ (freshView b w h d il).h = h ∧ (freshView b w h d il).d = d := by cases il <;> exact ⟨rfl, rfl, rfl, rfl, rfl⟩

theorem fresh_unused {s : St} {p : Prog} (h : R s p) : s.cnt p.next = 0 := by
  by_contra hc
  rcases (counts_pos h.counts p.next).1 hc with ⟨q, g, hq, hd⟩ | ⟨q, g, hq, hd⟩
  · exact absurd ((h.goodI q g hq).fp _ hd).2 (Nat.lt_irrefl _)
  · exact absurd ((h.goodC q g hq).fp _ hd).2 (Nat.lt_irrefl _)

theorem good_later {p : Prog} {g : Img} (hg : Good p g) (n : Nat) (u : Int → Byte) : Good (p.buffer n u) g := by
  refine ⟨?_, fun b hb => ⟨(hg.fp b hb).1, by have := (hg.fp b hb).2; simp only [Prog.buffer]; omega⟩, hg.nodata⟩
  intro i j k hp
  cases hd : g.data with
  | none => exact absurd hp (hg.nodata hd i j k)
  | some b =>
    have h1 := hg.inside i j k hp
    have h2 := hg.fp b hd
    have h3 : (addr g i j k).1 ≠ p.next := by
      show g.fp.1 ≠ p.next
      omega
    simp only [Prog.buffer]
    rw [put_ne _ _ h3]
    exact h1

theorem good_fresh (p : Prog) (w h d : Nat) (il : Bool) (u : Int → Byte) (hlt : w * h * d < sizeMod) : Good (p.buffer (w * h * d) u) (freshView p.next w h d il) := by
  have e := mkImage_eq ⟨p.next, p.len, p.px⟩ u w h d il hlt
  have hv := (C40_addresses (Owned.ctor ⟨p.next, p.len, p.px⟩ u w h d il hlt)).2
  rw [e] at hv
  refine ⟨hv, ?_, ?_⟩
  · intro b hb
    rw [(freshView_data ..).1] at hb
    cases hb
    rw [(freshView_data ..).2.1]
    exact ⟨rfl, by simp [Prog.buffer]⟩
  · intro hb
    rw [(freshView_data ..).1] at hb; cases hb

/-- A new buffer, not yet viewed by a handle but counted once. The state is the one before its first view is added. -/
theorem r_buffer {s : St} {p : Prog} (h : R s p) (n : Nat) (u : Int → Byte) :
    (∀ b, (put s.mem.size s.mem.next n) b = if put s.cnt s.mem.next 1 b = 0 then 0 else (p.buffer n u).len b) := by
  intro b
  rw [h.next]
  by_cases e : b = p.next
  · subst e; simp [put, Prog.buffer]
  · rw [put_ne _ _ e, put_ne _ _ e, h.size b]
    simp only [Prog.buffer]
    rw [put_ne _ _ e]

theorem fresh_counts {s : St} {p : Prog} (h : R s p) (w hh d : Nat) (il : Bool) : put s.cnt s.mem.next 1 = addC s.cnt (freshView p.next w hh d il) := by
  funext b
  unfold addC
  rw [(freshView_data ..).1, h.next]
  by_cases e : b = p.next
  · subst e; simp [put, fresh_unused h]
  · rw [put_ne _ _ e]
    simp [Ne.symm e]

theorem r_fresh_img {s : St} {p : Prog} (h : R s p) {a : Nat} (ha : Legal p a) (w hh d : Nat) (il : Bool) (u : Int → Byte) (hlt : w * hh * d < sizeMod) :
    R { s with mem := (mkImage s.mem u w hh d il).1, cnt := put s.cnt s.mem.next 1, imgs := put s.imgs a (some (freshView p.next w hh d il)) }
      ((p.buffer (w * hh * d) u).addImg a (freshView p.next w hh d il)).1 := by
  obtain ⟨ha0, hai, hac⟩ := ha
  have hb := r_buffer h (w * hh * d) u
  rw [mkImage_eq _ _ _ _ _ _ hlt]
  refine ⟨?_, h.con, ?_, h.cache, h.refs0, h.cref, ?_, ?_, hb, ?_, ?_, ?_⟩
  · simp only [Prog.addImg, Prog.buffer, h.img]
  · simp only [Prog.addImg, Prog.buffer]
    rw [put_ne _ _ (fun e => ha0 e.symm)]; exact h.img0
  · simp only [Prog.addImg, Prog.buffer, h.next]
  · have := counts_addImg h.counts hai (freshView p.next w hh d il)
    rw [← fresh_counts h] at this
    exact this
  · simp only [Prog.addImg, Prog.buffer, h.next, h.val]
  · intro q g hq
    rcases (put_some_iff hai).1 hq with ⟨-, rfl⟩ | hq
    · have := good_fresh p w hh d il u hlt
      exact ⟨this.inside, this.fp, this.nodata⟩
    · have := good_later (h.goodI q g hq) (w * hh * d) u
      exact ⟨this.inside, this.fp, this.nodata⟩
  · intro q g hq
    have := good_later (h.goodC q g hq) (w * hh * d) u
    exact ⟨this.inside, this.fp, this.nodata⟩

theorem r_fresh_con {s : St} {p : Prog} (h : R s p) {a : Nat} (ha : Legal p a) (w hh d : Nat) (il : Bool) (u : Int → Byte) (hlt : w * hh * d < sizeMod) :
    ∃ s', storeNew { s with mem := (mkImage s.mem u w hh d il).1, cnt := put s.cnt s.mem.next 1 } a (freshView p.next w hh d il) = some (s', .handle a) ∧
      R s' ((p.buffer (w * hh * d) u).addCon a (freshView p.next w hh d il)).1 := by
  obtain ⟨ha0, hai, hac⟩ := ha
  have hb := r_buffer h (w * hh * d) u
  rw [mkImage_eq _ _ _ _ _ _ hlt]
  unfold storeNew
  simp only
  rw [store_ok s.cache ha0 0]
  refine ⟨_, rfl, ?_⟩
  have hra : p.refs a = 0 := by
    by_contra hc
    have := (h.cref a).1 hc
    rw [hac] at this; simp at this
  refine ⟨h.img, ?_, h.img0, ?_, ?_, ?_, ?_, ?_, hb, ?_, ?_, ?_⟩
  · simp only [Prog.addCon, Prog.buffer, h.con]
  · intro c hc
    show Rep _ c (put p.refs a 1 c) (if put p.refs a 1 c = 0 then none else some ⟨c, 0⟩)
    by_cases e : c = a
    · subst e
      have := rep_step hc (h.cache c hc) (.store ⟨c, 0⟩)
      rw [hra] at this
      simpa [refs, kept, step, put] using this
    · rw [put_ne _ _ e]
      exact rep_other hc (h.cache c hc) (fun e' => e e'.symm) 0
  · simp only [Prog.addCon, Prog.buffer]
    rw [put_ne _ _ (fun e => ha0 e.symm)]; exact h.refs0
  · intro c
    simp only [Prog.addCon, Prog.buffer]
    by_cases e : c = a
    · subst e; simp [put]
    · rw [put_ne _ _ e, put_ne _ _ e]; exact h.cref c
  · simp only [Prog.addCon, Prog.buffer, h.next]
  · have := counts_addCon h.counts hac (freshView p.next w hh d il)
    rw [← fresh_counts h] at this
    exact this
  · simp only [Prog.addCon, Prog.buffer, h.next, h.val]
  · intro q g hq
    have := good_later (h.goodI q g hq) (w * hh * d) u
    exact ⟨this.inside, this.fp, this.nodata⟩
  · intro q g hq
    rcases (put_some_iff hac).1 hq with ⟨-, rfl⟩ | hq
    · have := good_fresh p w hh d il u hlt
      exact ⟨this.inside, this.fp, this.nodata⟩
    · have := good_later (h.goodC q g hq) (w * hh * d) u
      exact ⟨this.inside, this.fp, this.nodata⟩

theorem r_delImg {s : St} {p : Prog} (h : R s p) {q : Nat} {g : Img} (hq : p.img q = some g) :
    R (release { s with imgs := put s.imgs q none } g) { p with img := put p.img q none } := by
  have hr := release_spec { s with imgs := put s.imgs q none } g
  have h1 := fun b => size_release (s := { s with imgs := put s.imgs q none }) (p := p) h.size g b
  refine ⟨?_, ?_, ?_, ?_, h.refs0, h.cref, ?_, ?_, h1, ?_, ?_, ?_⟩
  · rw [(hr 0).2.1, h.img]
  · rw [(hr 0).2.2.1]; exact h.con
  · simp only [put]; split
    · rfl
    · exact h.img0
  · rw [(hr 0).2.2.2.1]; exact h.cache
  · rw [(hr 0).2.2.2.2.1]; exact h.next
  · rw [(hr 0).1]; exact counts_delImg h.counts hq
  · rw [(hr 0).2.2.2.2.2.1]; exact h.val
  · intro x g' hx
    have := h.goodI x g' (put_none_iff.1 hx).2
    exact ⟨this.inside, this.fp, this.nodata⟩
  · intro x g' hx
    have := h.goodC x g' hx
    exact ⟨this.inside, this.fp, this.nodata⟩

theorem r_conDestroy {s : St} {p : Prog} (h : R s p) (c : Nat) : R (conDestroy s c) (spec p 0 (.cDestroy c)).1 := by
  by_cases hc : c = 0
  · subst hc
    have e1 : conDestroy s 0 = s := by
      unfold conDestroy
      have : CApi.erase s.cache 0 = (s.cache, .error .nullPointer) := by simp [CApi.erase]
      rw [this]
      simp only
      cases s.cache.cache.find? 0 <;> rfl
    have e2 : (spec p 0 (.cDestroy 0)).1 = p := by
      simp only [spec, h.refs0]
      have : put p.refs 0 0 = p.refs := by funext x; unfold put; split <;> simp_all [h.refs0]
      simp [this]
    rw [e1, e2]; exact h
  · have hrep := h.cache c hc
    have hstep := fun x hx => rep_step (p := x) hx (h.cache x hx) (.erase c)
    have hcache' : ∀ x, x ≠ 0 → Rep (CApi.erase s.cache c).1 x (put p.refs c (p.refs c - 1) x) (if put p.refs c (p.refs c - 1) x = 0 then none else some ⟨x, 0⟩) := by
      intro x hx
      have := hstep x hx
      simp only [step, refs, kept] at this
      by_cases e : x = c
      · subst e
        simp only [if_true] at this
        rw [put_self]
        by_cases h1 : p.refs x ≤ 1
        · simp only [h1, if_true] at this
          have hz : p.refs x - 1 = 0 := by omega
          simpa [hz] using this
        · simp only [h1, if_false] at this
          have hz : p.refs x - 1 ≠ 0 := by omega
          have hz' : p.refs x ≠ 0 := by omega
          simpa [hz, hz'] using this
      · rw [put_ne _ _ e]
        simpa [Ne.symm e] using this
    have hf1 : s.cache.cache.find? c = if p.refs c = 0 then none else some ⟨c, 0⟩ := hrep.1
    have hf2 : (CApi.erase s.cache c).1.cache.find? c = if p.refs c - 1 = 0 then none else some ⟨c, 0⟩ := by
      have := (hcache' c hc).1
      rwa [put_self] at this
    by_cases h1 : p.refs c = 1
    · -- the last reference
      unfold conDestroy
      simp only
      rw [hf1, hf2]
      obtain ⟨g, hg⟩ := Option.isSome_iff_exists.1 ((h.cref c).1 (by omega))
      simp only [h1, Nat.sub_self, if_true, Nat.one_ne_zero, if_false, h.con, hg, spec]
      have hr := release_spec { s with cache := (CApi.erase s.cache c).1, cons := put p.con c none } g
      have hsz := fun b => size_release (s := { s with cache := (CApi.erase s.cache c).1, cons := put p.con c none }) (p := p) h.size g b
      rw [h1, Nat.sub_self] at hcache'
      refine ⟨?_, ?_, h.img0, ?_, ?_, ?_, ?_, ?_, hsz, ?_, ?_, ?_⟩
      · rw [(hr 0).2.1]; exact h.img
      · rw [(hr 0).2.2.1]
      · rw [(hr 0).2.2.2.1]
        exact hcache'
      · simp only; rw [put_ne _ _ (fun e => hc e.symm)]; exact h.refs0
      · intro x
        simp only
        by_cases e : x = c
        · subst e; simp [put]
        · rw [put_ne _ _ e, put_ne _ _ e]; exact h.cref x
      · rw [(hr 0).2.2.2.2.1]; exact h.next
      · rw [(hr 0).1]; exact counts_delCon h.counts hg
      · rw [(hr 0).2.2.2.2.2.1]; exact h.val
      · intro x g' hx
        have := h.goodI x g' hx
        exact ⟨this.inside, this.fp, this.nodata⟩
      · intro x g' hx
        have := h.goodC x g' (put_none_iff.1 hx).2
        exact ⟨this.inside, this.fp, this.nodata⟩
    · have e1 : conDestroy s c = { s with cache := (CApi.erase s.cache c).1 } := by
        unfold conDestroy
        simp only
        rw [hf1, hf2]
        by_cases hz : p.refs c = 0
        · simp [hz]
        · have : p.refs c - 1 ≠ 0 := by omega
          simp [hz, this]
      simp only [spec, h1, if_false]
      rw [e1]
      refine ⟨h.img, h.con, h.img0, hcache', ?_, ?_, h.next, h.counts, h.size, h.val, ?_, ?_⟩
      · simp only; rw [put_ne _ _ (fun e => hc e.symm)]; exact h.refs0
      · intro x
        simp only
        by_cases e : x = c
        · subst e
          rw [put_self, ← h.cref x]; omega
        · rw [put_ne _ _ e]; exact h.cref x
      · intro x g' hx
        have := h.goodI x g' hx
        exact ⟨this.inside, this.fp, this.nodata⟩
      · intro x g' hx
        have := h.goodC x g' hx
        exact ⟨this.inside, this.fp, this.nodata⟩

theorem read3_eq {s : St} {p : Prog} (h : R s p) {g : Img} (hg : Good p g) (hv : ∀ b, g.data = some b → s.cnt b ≠ 0) (i j k : Nat) :
    readRes s (get3 s.mem g i j k) = some (s, p.readAt g i j k) := by
  unfold get3 Prog.readAt
  by_cases hp : i < g.w ∧ j < g.h ∧ k < g.d
  · rw [if_neg (by omega), load_valid (good_valid h hg hv) hp, if_pos hp]
    simp only [Access.ofLoad, readRes, pix, h.val]
  · rw [if_pos (by omega), if_neg hp]; rfl

theorem read2_eq {s : St} {p : Prog} (h : R s p) {g : Img} (hg : Good p g) (hv : ∀ b, g.data = some b → s.cnt b ≠ 0) (i j : Nat) (hd : i < g.w → j < g.h → 0 < g.d) :
    readRes s (get2 s.mem g i j) = some (s, p.readAt g i j 0) := by
  by_cases hp : i < g.w ∧ j < g.h
  · have hd := hd hp.1 hp.2
    rw [(C41_in_bounds_partial (good_valid h hg hv) hp.1 hp.2 hd).1]
    unfold Prog.readAt
    rw [if_pos ⟨hp.1, hp.2, hd⟩]
    simp only [readRes, pix, h.val]
  · unfold get2 Prog.readAt
    rw [if_pos (by omega), if_neg (by tauto)]; rfl

/-- One call. -/
theorem step_refines {s : St} {p : Prog} (h : R s p) {a : Nat} (ha : Legal p a) {c : Call} (hc : CallerOk p c) :
    ∃ s', exec s a c = some (s', (spec p a c).2) ∧ R s' (spec p a c).1 := by
  cases c with
  | new =>
    refine ⟨_, rfl, ?_⟩
    have hg : Good p mkNull := ⟨by intro i j k hp; exact absurd hp.1 (by simp [mkNull]), by intro b hb; simp [mkNull] at hb, by intro _ i j k hp; exact absurd hp.1 (by simp [mkNull])⟩
    have := r_addImg h ha hg (by intro b hb; simp [mkNull] at hb)
    have e : addC s.cnt mkNull = s.cnt := by funext b; simp [addC, mkNull]
    rw [e] at this
    exact this
  | newDim w hh d il u =>
    have := r_fresh_img h ha w hh d il u hc
    refine ⟨_, ?_, this⟩
    simp only [exec]
    rw [mkImage_eq _ _ _ _ _ _ hc]
    simp only [spec, Prog.addImg, (freshView_data ..).2.1, h.next]
  | newFrom q =>
    obtain ⟨g, hg, -⟩ := hc
    simp only [exec, spec, hg]
    rw [use_live h hg, retain_eq]
    exact ⟨_, rfl, r_addImg h ha (h.goodI q g hg) (viewed_img h hg)⟩
  | destroy q =>
    rcases hc with rfl | ⟨g, hg, -⟩
    · refine ⟨s, rfl, ?_⟩
      have : put p.img 0 none = p.img := by funext x; unfold put; split <;> simp_all [h.img0]
      simp only [spec, this]; exact h
    · have hq : q ≠ 0 := by rintro rfl; rw [h.img0] at hg; cases hg
      simp only [exec, spec, hq, if_false]
      rw [use_live h hg]
      exact ⟨_, rfl, r_delImg h hg⟩
  | get2 q i j =>
    obtain ⟨g, hg, hd⟩ := hc
    refine ⟨s, ?_, h⟩
    simp only [exec, spec, ofImg, hg]
    rw [use_live h hg]
    exact read2_eq h (h.goodI q g hg) (viewed_img h hg) i j hd
  | get3 q i j k =>
    obtain ⟨g, hg, -⟩ := hc
    refine ⟨s, ?_, h⟩
    simp only [exec, spec, ofImg, hg]
    rw [use_live h hg]
    exact read3_eq h (h.goodI q g hg) (viewed_img h hg) i j k
  | size q =>
    obtain ⟨g, hg, -⟩ := hc
    refine ⟨s, ?_, h⟩
    simp only [exec, spec, ofImg, hg]
    rw [use_live h hg, imgSize_eq h (viewed_img h hg)]
  | width q =>
    obtain ⟨g, hg, -⟩ := hc
    refine ⟨s, ?_, h⟩
    simp only [exec, spec, ofImg, hg]
    rw [use_live h hg]
  | height q =>
    obtain ⟨g, hg, -⟩ := hc
    refine ⟨s, ?_, h⟩
    simp only [exec, spec, ofImg, hg]
    rw [use_live h hg]
  | depth q =>
    obtain ⟨g, hg, -⟩ := hc
    refine ⟨s, ?_, h⟩
    simp only [exec, spec, ofImg, hg]
    rw [use_live h hg]
  | wStep q =>
    obtain ⟨g, hg, -⟩ := hc
    refine ⟨s, ?_, h⟩
    simp only [exec, spec, ofImg, hg]
    rw [use_live h hg]
  | hStep q =>
    obtain ⟨g, hg, -⟩ := hc
    refine ⟨s, ?_, h⟩
    simp only [exec, spec, ofImg, hg]
    rw [use_live h hg]
  | dStep q =>
    obtain ⟨g, hg, -⟩ := hc
    refine ⟨s, ?_, h⟩
    simp only [exec, spec, ofImg, hg]
    rw [use_live h hg]
  | write q i j k v =>
    obtain ⟨g, hg, hp⟩ := hc
    have hv := good_valid h (h.goodI q g hg) (viewed_img h hg) i j k hp
    simp only [exec, spec, hg]
    rw [use_live h hg]
    unfold Image.store
    rw [if_pos hv]
    refine ⟨_, rfl, ?_⟩
    refine ⟨h.img, h.con, h.img0, h.cache, h.refs0, h.cref, h.next, h.counts, h.size, ?_, ?_, ?_⟩
    · simp only [h.val]
    · intro x g' hx
      have := h.goodI x g' hx
      exact ⟨this.inside, this.fp, this.nodata⟩
    · intro x g' hx
      have := h.goodC x g' hx
      exact ⟨this.inside, this.fp, this.nodata⟩
  | cNew q =>
    obtain ⟨g, hg, -⟩ := hc
    simp only [exec, spec, hg]
    rw [use_live h hg, retain_eq]
    exact r_addCon h ha (h.goodI q g hg) (viewed_img h hg)
  | cDestroy c => exact ⟨_, rfl, r_conDestroy h c⟩
  | cSize c =>
    refine ⟨s, ?_, h⟩
    simp only [exec, spec, ofCon]
    rw [useCon_eq h]
    cases hg : p.con c with
    | none => rfl
    | some g => simp only; rw [imgSize_eq h (viewed_con h hg)]
  | cWidth c =>
    refine ⟨s, ?_, h⟩
    simp only [exec, spec, ofCon]
    rw [useCon_eq h]
    cases hg : p.con c <;> rfl
  | cHeight c =>
    refine ⟨s, ?_, h⟩
    simp only [exec, spec, ofCon]
    rw [useCon_eq h]
    cases hg : p.con c <;> rfl
  | cDepth c =>
    refine ⟨s, ?_, h⟩
    simp only [exec, spec, ofCon]
    rw [useCon_eq h]
    cases hg : p.con c <;> rfl
  | cImage c =>
    simp only [exec, spec]
    rw [useCon_eq h]
    cases hg : p.con c with
    | none => exact ⟨s, rfl, h⟩
    | some g =>
      simp only [retain_eq]
      exact ⟨_, rfl, r_addImg h ha (h.goodC c g hg) (viewed_con h hg)⟩
  | convert c r =>
    simp only [exec]
    rw [useCon_eq h]
    cases hg : p.con c with
    | none => exact ⟨s, by simp [spec, hg], by simpa [spec, hg] using h⟩
    | some g =>
      cases r with
      | nothing => exact ⟨s, by simp [spec, hg], by simpa [spec, hg] using h⟩
      | same =>
        have h0 : c ≠ 0 := by rintro rfl; rw [con0 h] at hg; cases hg
        have hr : p.refs c ≠ 0 := (h.cref c).2 (by rw [hg]; rfl)
        simp only [spec, hg]
        rw [store_ok s.cache h0 0]
        refine ⟨_, rfl, ?_⟩
        refine ⟨h.img, h.con, h.img0, ?_, ?_, ?_, h.next, h.counts, h.size, h.val, ?_, ?_⟩
        · intro x hx
          show Rep _ x (put p.refs c (p.refs c + 1) x) (if put p.refs c (p.refs c + 1) x = 0 then none else some ⟨x, 0⟩)
          by_cases e : x = c
          · subst e
            have := rep_step hx (h.cache x hx) (.store ⟨x, 0⟩)
            simpa [refs, kept, step, put, hr] using this
          · rw [put_ne _ _ e]
            exact rep_other hx (h.cache x hx) (fun e' => e e'.symm) 0
        · simp only; rw [put_ne _ _ (fun e => h0 e.symm)]; exact h.refs0
        · intro x
          simp only
          by_cases e : x = c
          · subst e; rw [put_self, hg]; simp
          · rw [put_ne _ _ e]; exact h.cref x
        · intro x g' hx
          have := h.goodI x g' hx
          exact ⟨this.inside, this.fp, this.nodata⟩
        · intro x g' hx
          have := h.goodC x g' hx
          exact ⟨this.inside, this.fp, this.nodata⟩
      | fresh w hh d il u =>
        have hc : w * hh * d < sizeMod := hc
        obtain ⟨s', h1, h2⟩ := r_fresh_con h ha w hh d il u hc
        refine ⟨s', ?_, by simpa [spec, hg] using h2⟩
        simp only [spec, hg]
        rw [mkImage_eq _ _ _ _ _ _ hc] at h1 ⊢
        simp only [(freshView_data ..).2.1]
        rw [h.next] at h1 ⊢
        exact h1
      | window off w hh d ws hs ds =>
        obtain ⟨hi, hn⟩ := hc g hg
        have hgood : Good p ⟨g.data, (g.fp.1, g.fp.2 + off), w, hh, d, ws, hs, ds⟩ := by
          refine ⟨hi, (h.goodC c g hg).fp, ?_⟩
          intro hd i j k hp
          have := hn hd
          obtain ⟨h1, h2, h3⟩ := hp
          have : 0 < w * hh * d := Nat.mul_pos (Nat.mul_pos (by simp only at h1; omega) (by simp only at h2; omega)) (by simp only at h3; omega)
          omega
        simp only [spec, hg, retain_eq, mkView]
        exact r_addCon h ha hgood (fun b hb => viewed_con h hg b hb)

/-- C143: for every sequence of calls in which the caller uses image pointers only while they live, no call is undefined behaviour,
    every result is the specified one, and afterwards a pixel buffer is allocated exactly while some image or container
    handle views it. -/
theorem C143_handles (calls : List (Nat × Call)) (hl : LegalRun Prog.init calls) :
    ∃ s, execAll St.init calls = some (s, (specAll Prog.init calls).2) ∧
      (∀ b, (specAll Prog.init calls).1.Viewed b → s.mem.size b = (specAll Prog.init calls).1.len b) ∧
      (∀ b, ¬ (specAll Prog.init calls).1.Viewed b → s.cnt b = 0 ∧ s.mem.size b = 0) := by
  have main : ∀ (calls : List (Nat × Call)) (s : St) (p : Prog), R s p → LegalRun p calls → ∃ s', execAll s calls = some (s', (specAll p calls).2) ∧ R s' (specAll p calls).1 := by
    intro calls
    induction calls with
    | nil => intro s p h _; exact ⟨s, rfl, h⟩
    | cons ac l ih =>
      intro s p h hl
      obtain ⟨a, c⟩ := ac
      obtain ⟨h1, h2, h3⟩ := hl
      obtain ⟨s1, e1, r1⟩ := step_refines h h1 h2
      obtain ⟨s2, e2, r2⟩ := ih s1 _ r1 h3
      refine ⟨s2, ?_, r2⟩
      simp only [execAll, e1, Option.bind_some, e2, Option.map_some, specAll]
  obtain ⟨s, e, r⟩ := main calls _ _ r_init hl
  refine ⟨s, e, ?_, ?_⟩
  · intro b hb
    rw [r.size b, if_neg ((counts_pos r.counts b).2 hb)]
  · intro b hb
    have : s.cnt b = 0 := by
      by_contra hc
      exact hb ((counts_pos r.counts b).1 hc)
    exact ⟨this, by rw [r.size b, if_pos this]⟩

/-- In the specification nothing but a write changes a pixel, and no call changes the view behind a handle that it does not create or
    destroy: destroying the image a container was made from, or the other way round, is not noticed. -/
theorem C143_views_stay (p : Prog) (a : Nat) (ha : Legal p a) (c : Call) :
    (∀ q g, p.img q = some g → c ≠ .destroy q → (spec p a c).1.img q = some g) ∧
    (∀ q g, p.con q = some g → c ≠ .cDestroy q → (spec p a c).1.con q = some g) ∧
    (∀ b o, b < p.next → (∀ q i j k v, c ≠ .write q i j k v) → (spec p a c).1.px b o = p.px b o) := by
  obtain ⟨ha0, hai, hac⟩ := ha
  have hq : ∀ (q : Nat) (g g' : Img), p.img q = some g → put p.img a (some g') q = some g := by
    intro q g g' h
    rw [put_ne _ _ (by rintro rfl; rw [hai] at h; cases h)]; exact h
  have hc : ∀ (q : Nat) (g g' : Img), p.con q = some g → put p.con a (some g') q = some g := by
    intro q g g' h
    rw [put_ne _ _ (by rintro rfl; rw [hac] at h; cases h)]; exact h
  have hb : ∀ (u : Int → Byte) b o, b < p.next → put p.px p.next u b o = p.px b o := by
    intro u b o h
    rw [put_ne _ _ (by omega)]
  cases c with
  | new => exact ⟨fun q g h _ => hq q g _ h, fun q g h _ => h, fun b o h _ => rfl⟩
  | newDim w h d il u => exact ⟨fun q g h _ => hq q g _ h, fun q g h _ => h, fun b o h _ => hb u b o h⟩
  | newFrom r =>
    simp only [spec]
    cases p.img r with
    | none => exact ⟨fun q g h _ => h, fun q g h _ => h, fun b o h _ => rfl⟩
    | some g0 => exact ⟨fun q g h _ => hq q g _ h, fun q g h _ => h, fun b o h _ => rfl⟩
  | destroy r =>
    refine ⟨?_, fun q g h _ => h, fun b o h _ => rfl⟩
    intro q g h hne
    simp only [spec]
    rw [put_ne _ _ (by rintro rfl; exact hne rfl)]; exact h
  | write r i j k v =>
    simp only [spec]
    cases p.img r with
    | none => exact ⟨fun q g h _ => h, fun q g h _ => h, fun b o h _ => rfl⟩
    | some g0 => exact ⟨fun q g h _ => h, fun q g h _ => h, fun b o h hn => absurd rfl (hn r i j k v)⟩
  | cNew r =>
    simp only [spec]
    cases p.img r with
    | none => exact ⟨fun q g h _ => h, fun q g h _ => h, fun b o h _ => rfl⟩
    | some g0 => exact ⟨fun q g h _ => h, fun q g h _ => hc q g _ h, fun b o h _ => rfl⟩
  | cDestroy r =>
    simp only [spec]
    split
    · refine ⟨fun q g h _ => h, ?_, fun b o h _ => rfl⟩
      intro q g h hne
      simp only
      rw [put_ne _ _ (by rintro rfl; exact hne rfl)]; exact h
    · exact ⟨fun q g h _ => h, fun q g h _ => h, fun b o h _ => rfl⟩
  | cImage r =>
    simp only [spec]
    cases p.con r with
    | none => exact ⟨fun q g h _ => h, fun q g h _ => h, fun b o h _ => rfl⟩
    | some g0 => exact ⟨fun q g h _ => hq q g _ h, fun q g h _ => h, fun b o h _ => rfl⟩
  | convert r cv =>
    simp only [spec]
    cases p.con r with
    | none => exact ⟨fun q g h _ => h, fun q g h _ => h, fun b o h _ => rfl⟩
    | some g0 =>
      cases cv with
      | nothing => exact ⟨fun q g h _ => h, fun q g h _ => h, fun b o h _ => rfl⟩
      | same => exact ⟨fun q g h _ => h, fun q g h _ => h, fun b o h _ => rfl⟩
      | fresh w hh d il u => exact ⟨fun q g h _ => h, fun q g h _ => hc q g _ h, fun b o h _ => hb u b o h⟩
      | window off w hh d ws hs ds => exact ⟨fun q g h _ => h, fun q g h _ => hc q g _ h, fun b o h _ => rfl⟩
  | get2 | get3 | size | width | height | depth | wStep | hStep | dStep | cSize | cWidth | cHeight | cDepth =>
    exact ⟨fun q g h _ => h, fun q g h _ => h, fun b o h _ => rfl⟩

/-- The step accessors return the `size_t` congruent to the signed step: in range, and equal to the step modulo 2^64. -/
theorem C143_steps (x : Int) : toSize x < 2 ^ 64 ∧ ((toSize x : Int) - x) % (2 : Int) ^ 64 = 0 ∧ (0 ≤ x → x < 2 ^ 64 → (toSize x : Int) = x) := by
  unfold toSize
  refine ⟨?_, ?_, ?_⟩ <;> omega

example : toSize (-1) = 2 ^ 64 - 1 ∧ toSize 7 = 7 := by decide

/-- An image at 8, a container at 16 on it; the image is destroyed, an image at 24 taken from the container and written through. -/
def demo : List (Nat × Call) := [(8, .newDim 2 1 1 false (fun o => if o = 0 then 3 else 4)), (16, .cNew 8), (24, .destroy 8), (24, .cImage 16),
  (32, .write 24 1 0 0 9), (32, .cDestroy 16), (32, .get3 24 1 0 0), (32, .get2 24 0 0), (32, .get3 24 2 0 0), (32, .cWidth 16), (32, .destroy 24)]

example : LegalRun Prog.init demo ∧ (specAll Prog.init demo).2 = [.handle 8, .handle 16, .void, .handle 24, .void, .void, .num 9, .num 3, .num 0, .num 0, .void] ∧
    ((execAll St.init demo).map (·.2)) = some (specAll Prog.init demo).2 := by
  have hl : LegalRun Prog.init demo := by
    simp [demo, LegalRun, Legal, CallerOk, Prog.Has, Prog.init, spec, Prog.addImg, Prog.addCon, Prog.buffer, put, ofImg, ofCon, freshView, IsPixel, sizeMod]
  refine ⟨hl, by decide +kernel, ?_⟩
  obtain ⟨s, h, -⟩ := C143_handles demo hl
  rw [h]; rfl

end Vital.CApi.Imgs
