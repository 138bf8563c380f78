import Verif.IO.Ply
import Verif.Config.ParserLex
/- Properties C53, C54, C90 (PLY files). -/
namespace Vital.IO
open Vital Vital.Stream Vital.Sys

variable {ν : Type} {f : NumFmt ν} {good : ν → Prop} {rnd : ν → ν}

/-! ### The ordered map -/

/-- Ids strictly ascending, as in a `std::map`. -/
def Ascending {α : Type} (l : List (Int × α)) : Prop := l.Pairwise (fun a b => a.1 < b.1)

theorem mapPut_last {α : Type} (l : List (Int × α)) (i : Int) (a : α) (h : ∀ e ∈ l, e.1 < i) : mapPut l i a = l ++ [(i, a)] := by
  induction l with
  | nil => rfl
  | cons e l ih =>
    unfold mapPut
    rw [if_pos (h e (by simp)), ih (fun x hx => h x (by simp [hx]))]
    rfl

theorem mapPut_mem {α : Type} (l : List (Int × α)) (i : Int) (a : α) : ∀ e ∈ mapPut l i a, e = (i, a) ∨ e ∈ l := by
  induction l with
  | nil => intro e he; simp [mapPut] at he; exact .inl he
  | cons x l ih =>
    intro e he
    unfold mapPut at he
    split at he
    · rcases List.mem_cons.1 he with rfl | he
      · exact .inr (by simp)
      · rcases ih e he with h | h
        · exact .inl h
        · exact .inr (by simp [h])
    · split at he
      · rcases List.mem_cons.1 he with rfl | he
        · exact .inl rfl
        · exact .inr (by simp [he])
      · rcases List.mem_cons.1 he with rfl | he
        · exact .inl rfl
        · exact .inr he

theorem mapPut_ascending {α : Type} {l : List (Int × α)} (h : Ascending l) (i : Int) (a : α) : Ascending (mapPut l i a) := by
  induction l with
  | nil => simp [mapPut, Ascending]
  | cons x l ih =>
    obtain ⟨h1, h2⟩ := List.pairwise_cons.1 h
    unfold mapPut
    split
    · rename_i hx
      refine List.pairwise_cons.2 ⟨?_, ih h2⟩
      intro e he
      rcases mapPut_mem l i a e he with rfl | he
      · exact hx
      · exact h1 e he
    · split
      · rename_i hx
        exact List.pairwise_cons.2 ⟨fun e he => hx ▸ h1 e he, h2⟩
      · rename_i hx hy
        refine List.pairwise_cons.2 ⟨?_, h⟩
        intro e he
        rcases List.mem_cons.1 he with rfl | he
        · show i < e.1; omega
        · have := h1 e he; show i < e.1; omega

theorem mapPut_length {α : Type} (l : List (Int × α)) (i : Int) (a : α) : (mapPut l i a).length ≤ l.length + 1 := by
  induction l with
  | nil => simp [mapPut]
  | cons x l ih =>
    unfold mapPut
    split
    · simp; omega
    · split <;> simp

/-- Value stored under an id. -/
def valueAt {α : Type} (l : List (Int × α)) (i : Int) : Option α := (l.find? (fun e => decide (e.1 = i))).map (·.2)

theorem valueAt_mapPut {α : Type} (l : List (Int × α)) (i j : Int) (a : α) :
    valueAt (mapPut l i a) j = if j = i then some a else valueAt l j := by
  unfold valueAt
  induction l with
  | nil =>
    unfold mapPut
    by_cases h : j = i
    · subst h; simp
    · have : ¬ i = j := fun e => h e.symm
      simp [h, this]
  | cons x l ih =>
    unfold mapPut
    by_cases h1 : x.1 < i
    · rw [if_pos h1]
      by_cases hx : x.1 = j
      · have : ¬ j = i := by omega
        simp [hx, this]
      · simp only [List.find?_cons, hx, decide_false]
        exact ih
    · rw [if_neg h1]
      by_cases h2 : x.1 = i
      · rw [if_pos h2]
        by_cases h : j = i
        · subst h; simp
        · have h3 : ¬ i = j := fun e => h e.symm
          have h4 : ¬ x.1 = j := by omega
          simp [h, h3, h4]
      · rw [if_neg h2]
        by_cases h : j = i
        · subst h; simp
        · have h3 : ¬ i = j := fun e => h e.symm
          simp [h, h3]

/-! ### The data part -/

/-- A line with nothing but white space. -/
def Blank (l : Str) : Prop := ∀ c ∈ l, isSpace c = true

theorem words_blank {l : Str} : words l = [] ↔ Blank l := by
  constructor
  · intro h c hc
    cases hs : isSpace c with
    | true => rfl
    | false =>
      exfalso
      have gen : ∀ (s acc : Str), (c ∈ s ∨ acc ≠ []) → wordsGo acc s ≠ [] := by
        intro s
        induction s with
        | nil =>
          intro acc h
          unfold wordsGo
          have : acc ≠ [] := by simpa using h
          simp [this]
        | cons a s ih =>
          intro acc h
          unfold wordsGo
          split
          · rename_i ha
            split
            · rename_i hacc
              apply ih
              rcases h with h | h
              · rcases List.mem_cons.1 h with rfl | h
                · rw [hs] at ha; cases ha
                · exact .inl h
              · exact absurd hacc h
            · simp
          · exact ih _ (.inr (by simp))
      exact gen l [] (.inl hc) h
  · intro h
    have := words_spaces h []
    rw [List.append_nil] at this
    exact this

instance (l : Str) : Decidable (Blank l) := inferInstanceAs (Decidable (∀ c ∈ l, isSpace c = true))

/-- The lines that are not blank. -/
def solid (ls : List Str) : List Str := ls.filter (fun l => decide (¬ Blank l))

/-- The landmarks of vertex lines, numbered from `n`. -/
def vertices (f : NumFmt ν) (k : Consts ν) (props : List VProp) : Nat → List Str → List (Int × Landmark ν)
  | _, [] => []
  | n, l :: ls => vertexOf f k props n (words l) :: vertices f k props (n + 1) ls

def putAll {α : Type} (m : List (Int × α)) (es : List (Int × α)) : List (Int × α) := es.foldl (fun m e => mapPut m e.1 e.2) m

theorem plyLoop_data (k : Consts ν) (h : Hdr) (hn : h.numVerts < 4294967295) (ls : List Str) : ∀ (c : Nat) (m : List (Int × Landmark ν)),
    c ≤ h.numVerts → (plyLoop f k ls ⟨true, h, c, m⟩).landmarks =
      putAll m (vertices f k h.props c ((solid ls).take (h.numVerts + 1 - c))) := by
  induction ls with
  | nil => intro c m _; simp [plyLoop, solid, vertices, putAll]
  | cons l ls ih =>
    intro c m hc
    unfold plyLoop
    by_cases hb : words l = []
    · simp only [hb, if_true]
      rw [ih c m hc]
      have : solid (l :: ls) = solid ls := by
        unfold solid
        rw [List.filter_cons_of_neg (by simp [words_blank.1 hb])]
      rw [this]
    · have hs : solid (l :: ls) = l :: solid ls := by
        unfold solid
        rw [List.filter_cons_of_pos (by simp; exact fun h => hb (words_blank.2 h))]
      have hm : (c + 1) % 4294967296 = c + 1 := Nat.mod_eq_of_lt (by omega)
      have e : h.numVerts + 1 - c = (h.numVerts - c) + 1 := by omega
      simp only [hb, if_false, Bool.true_eq_false, hs, hm, e, List.take_succ_cons, vertices, putAll, List.foldl_cons]
      by_cases hlt : h.numVerts < c + 1
      · rw [if_pos hlt]
        have : h.numVerts - c = 0 := by omega
        rw [this]
        rfl
      · rw [if_neg hlt, ih (c + 1) _ (by omega)]
        have : h.numVerts + 1 - (c + 1) = h.numVerts - c := by omega
        simp only [this]
        rfl

theorem putAll_length {α : Type} (es : List (Int × α)) : ∀ m : List (Int × α), (putAll m es).length ≤ m.length + es.length := by
  induction es with
  | nil => intro m; simp [putAll]
  | cons e es ih =>
    intro m
    have h1 := ih (mapPut m e.1 e.2)
    have h2 := mapPut_length m e.1 e.2
    show (putAll (mapPut m e.1 e.2) es).length ≤ _
    simp
    omega

theorem vertices_length (k : Consts ν) (props : List VProp) (ls : List Str) : ∀ n, (vertices f k props n ls).length = ls.length := by
  induction ls with
  | nil => intro n; rfl
  | cons l ls ih => intro n; simp [vertices, ih]

/-! ### The header -/

/-- A header line: not `end_header`. -/
def HeaderLines (hdr : List Str) : Prop := ∀ l ∈ hdr, l ≠ c!"end_header"

/-- The effect of the header lines. -/
def headerOf (h : Hdr) (hdr : List Str) : Hdr := hdr.foldl (fun h l => if words l = [] then h else headerLine h (words l)) h

theorem plyLoop_header (k : Consts ν) (hdr data : List Str) (hh : HeaderLines hdr) : ∀ (h : Hdr) (c : Nat) (m : List (Int × Landmark ν)),
    plyLoop f k (hdr ++ c!"end_header" :: data) ⟨false, h, c, m⟩ = plyLoop f k data ⟨true, headerOf h hdr, c, m⟩ := by
  induction hdr with
  | nil =>
    intro h c m
    show plyLoop f k (c!"end_header" :: data) _ = _
    conv => lhs; unfold plyLoop
    have : words (c!"end_header") ≠ [] := by decide
    simp only [this, if_false, if_true]
    rfl
  | cons l hdr ih =>
    intro h c m
    have ih := ih (fun x hx => hh x (by simp [hx]))
    show plyLoop f k (l :: (hdr ++ c!"end_header" :: data)) _ = _
    conv => lhs; unfold plyLoop
    by_cases hb : words l = []
    · simp only [hb, if_true]
      rw [ih]
      simp [headerOf, hb]
    · simp only [hb, if_false, if_true, hh l (by simp)]
      rw [ih]
      simp [headerOf, hb]

/-- The line declares vertices. -/
def IsVertexElement (l : Str) : Prop := ∃ n, words l = [c!"element", c!"vertex", n]

/-- The last vertex element of the header declares `n` vertices. -/
def Declares (hdr : List Str) (n : Nat) : Prop :=
  ∃ a l b, hdr = a ++ l :: b ∧ words l = [c!"element", c!"vertex", natStr n] ∧ ∀ x ∈ b, ¬ IsVertexElement x

theorem propertyLine_numVerts (h : Hdr) (ts : List Str) : (propertyLine h ts).numVerts = h.numVerts := by
  unfold propertyLine; split <;> rfl

theorem three_tokens {ts : List Str} {a b : Str} (h : ts.length = 3 ∧ ts[0]? = some a ∧ ts[1]? = some b) : ∃ c, ts = [a, b, c] := by
  obtain ⟨h1, h2, h3⟩ := h
  match ts, h1 with
  | [x, y, z], _ => simp at h2 h3; subst h2 h3; exact ⟨z, rfl⟩

theorem headerLine_numVerts (h : Hdr) (l : Str) (hl : ¬ IsVertexElement l) : (headerLine h (words l)).numVerts = h.numVerts := by
  unfold headerLine
  rw [propertyLine_numVerts]
  unfold elementLine
  split
  · rename_i hx
    exact absurd (three_tokens hx) hl
  · split <;> rfl

theorem headerOf_cons (h : Hdr) (l : Str) (ls : List Str) :
    headerOf h (l :: ls) = headerOf (if words l = [] then h else headerLine h (words l)) ls := rfl

theorem headerOf_append (h : Hdr) (a b : List Str) : headerOf h (a ++ b) = headerOf (headerOf h a) b := by
  unfold headerOf
  rw [List.foldl_append]

theorem headerOf_numVerts (b : List Str) (hb : ∀ x ∈ b, ¬ IsVertexElement x) : ∀ h : Hdr, (headerOf h b).numVerts = h.numVerts := by
  induction b with
  | nil => intro h; rfl
  | cons l b ih =>
    intro h
    rw [headerOf_cons, ih (fun x hx => hb x (by simp [hx]))]
    split
    · rfl
    · exact headerLine_numVerts h l (hb l (by simp))

theorem extract_nat (n : Nat) (h : n < 4294967296) (v : Nat) : extract cUnsigned (some (natStr n)) v = (some [], n) := by
  have := (natEx_reads 4294967296 n h).extract (ws := []) (by simp) ends_nil v
  simpa [cUnsigned] using this

theorem elementLine_vertex (h : Hdr) (c : Str) : elementLine h [c!"element", c!"vertex", c] =
    { h with numVerts := (extract cUnsigned (some c) h.numVerts).2, parsingVerts := true } := rfl

theorem headerOf_declares {hdr : List Str} {n : Nat} (hd : Declares hdr n) (hn : n < 4294967296) (h : Hdr) :
    (headerOf h hdr).numVerts = n := by
  obtain ⟨a, l, b, rfl, hl, hb⟩ := hd
  rw [headerOf_append, headerOf_cons, headerOf_numVerts b hb, hl, if_neg (by simp)]
  unfold headerLine
  rw [propertyLine_numVerts, elementLine_vertex, extract_nat n hn]

/-- The lines of a vertex element and the property names they declare, in order. -/
inductive VertexPart : List Str → List Str → Prop
  | nil : VertexPart [] []
  | prop {l t name : Str} {b ns : List Str} (h : words l = [c!"property", t, name]) (r : VertexPart b ns) : VertexPart (l :: b) (name :: ns)
  | other {l : Str} {b ns : List Str} (h1 : (words l).head? ≠ some (c!"element")) (h2 : ¬ ∃ t name, words l = [c!"property", t, name])
      (r : VertexPart b ns) : VertexPart (l :: b) ns

/-- A PLY header with one vertex element of `n` vertices with these properties. -/
structure Header (hdr : List Str) (n : Nat) (names : List Str) : Prop where
  lines : HeaderLines hdr
  parts : ∃ pre v body post, hdr = pre ++ v :: (body ++ post) ∧ words v = [c!"element", c!"vertex", natStr n] ∧
    (∀ x ∈ pre, ¬ IsVertexElement x) ∧ VertexPart body names ∧ (∀ x ∈ post, ¬ IsVertexElement x) ∧
    (∀ x, post.head? = some x → (words x).head? = some (c!"element"))

theorem headerLine_off (h : Hdr) (hp : h.parsingVerts = false) (l : Str) (hl : ¬ IsVertexElement l) :
    (headerLine h (words l)).parsingVerts = false ∧ (headerLine h (words l)).props = h.props := by
  have : (elementLine h (words l)).parsingVerts = false ∧ (elementLine h (words l)).props = h.props := by
    unfold elementLine
    split
    · rename_i hx
      exact absurd (three_tokens hx) hl
    · split
      · exact ⟨rfl, rfl⟩
      · exact ⟨hp, rfl⟩
  unfold headerLine propertyLine
  rw [if_neg (by simp [this.1])]
  exact this

theorem headerOf_off (ls : List Str) (hl : ∀ x ∈ ls, ¬ IsVertexElement x) : ∀ h : Hdr, h.parsingVerts = false →
    (headerOf h ls).parsingVerts = false ∧ (headerOf h ls).props = h.props := by
  induction ls with
  | nil => intro h hp; exact ⟨hp, rfl⟩
  | cons l ls ih =>
    intro h hp
    rw [headerOf_cons]
    split
    · exact ih (fun x hx => hl x (by simp [hx])) h hp
    · have h1 := headerLine_off h hp l (hl l (by simp))
      have h2 := ih (fun x hx => hl x (by simp [hx])) _ h1.1
      exact ⟨h2.1, h2.2.trans h1.2⟩

theorem headerOf_part {body names : List Str} (hv : VertexPart body names) : ∀ h : Hdr, h.parsingVerts = true →
    (headerOf h body).parsingVerts = true ∧ (headerOf h body).props = h.props ++ names.map propOf := by
  induction hv with
  | nil => intro h hp; exact ⟨hp, by simp [headerOf]⟩
  | @prop l t name b ns hl _ ih =>
    intro h hp
    rw [headerOf_cons, hl, if_neg (by simp)]
    have e : headerLine h [c!"property", t, name] = { h with props := h.props ++ [propOf name] } := by
      have e1 : elementLine h [c!"property", t, name] = h := by
        unfold elementLine
        rw [if_neg (by intro hx; exact absurd hx.2.1 (by simp)), if_neg (by simp)]
      unfold headerLine
      rw [e1]
      unfold propertyLine
      rw [if_pos ⟨hp, rfl, rfl⟩]
      rfl
    rw [e]
    have := ih { h with props := h.props ++ [propOf name] } hp
    exact ⟨this.1, by rw [this.2]; simp⟩
  | @other l b ns h1 h2 _ ih =>
    intro h hp
    rw [headerOf_cons]
    split
    · exact ih h hp
    · have e1 : elementLine h (words l) = h := by
        unfold elementLine
        have : ¬ (words l)[0]? = some (c!"element") := by rw [← List.head?_eq_getElem?]; exact h1
        rw [if_neg (by intro hx; exact this hx.2.1), if_neg this]
      have e2 : headerLine h (words l) = h := by
        unfold headerLine
        rw [e1]
        unfold propertyLine
        rw [if_neg ?_]
        rintro ⟨_, h3, h4⟩
        apply h2
        match hw : words l, h3 with
        | [x, y, z], _ => rw [hw] at h4; simp at h4; exact ⟨y, z, by rw [h4]⟩
      rw [e2]
      exact ih h hp

theorem VertexPart.noElement {body names : List Str} (h : VertexPart body names) : ∀ x ∈ body, ¬ IsVertexElement x := by
  induction h with
  | nil => simp
  | prop h _ ih =>
    intro x hx
    rcases List.mem_cons.1 hx with rfl | hx
    · rintro ⟨k, hk⟩
      rw [h] at hk; simp at hk
    · exact ih x hx
  | other h1 _ _ ih =>
    intro x hx
    rcases List.mem_cons.1 hx with rfl | hx
    · rintro ⟨k, hk⟩
      rw [hk] at h1; simp at h1
    · exact ih x hx

theorem headerOf_header {hdr names : List Str} {n : Nat} (hh : Header hdr n names) (hn : n < 4294967296) :
    (headerOf {} hdr).numVerts = n ∧ (headerOf {} hdr).props = names.map propOf := by
  obtain ⟨pre, v, body, post, rfl, hv, hpre, hbody, hpost, hhead⟩ := hh.parts
  have hd : Declares (pre ++ v :: (body ++ post)) n := by
    refine ⟨pre, v, body ++ post, rfl, hv, ?_⟩
    intro x hx
    rcases List.mem_append.1 hx with hx | hx
    · exact hbody.noElement x hx
    · exact hpost x hx
  refine ⟨headerOf_declares hd hn {}, ?_⟩
  rw [headerOf_append, headerOf_cons, hv, if_neg (by simp), headerOf_append]
  have h1 := headerOf_off pre hpre {} rfl
  have e : headerLine (headerOf {} pre) [c!"element", c!"vertex", natStr n] = { headerOf {} pre with numVerts := n, parsingVerts := true } := by
    unfold headerLine
    rw [elementLine_vertex, extract_nat n hn]
    unfold propertyLine
    rw [if_neg (by intro hx; exact absurd hx.2.2 (by simp))]
  rw [e]
  have h2 : (headerOf { headerOf {} pre with numVerts := n, parsingVerts := true } body).props = names.map propOf := by
    rw [(headerOf_part hbody { headerOf {} pre with numVerts := n, parsingVerts := true } rfl).2]
    show (headerOf {} pre).props ++ _ = _
    rw [h1.2]
    rfl
  cases post with
  | nil => exact h2
  | cons x post =>
    rw [headerOf_cons]
    have hx := hhead x rfl
    have hne : words x ≠ [] := by intro e; rw [e] at hx; simp at hx
    rw [if_neg hne]
    generalize headerOf { headerOf {} pre with numVerts := n, parsingVerts := true } body = g at h2 ⊢
    have hxv := hpost x (by simp)
    have e1 : elementLine g (words x) = { g with parsingVerts := false } := by
      unfold elementLine
      rw [if_neg (fun hx => hxv (three_tokens hx)), if_pos (by rw [← List.head?_eq_getElem?]; exact hx)]
    have e2 : headerLine g (words x) = { g with parsingVerts := false } := by
      unfold headerLine
      rw [e1]
      unfold propertyLine
      rw [if_neg (by simp)]
    rw [e2]
    have := headerOf_off post (fun y hy => hpost y (by simp [hy])) { g with parsingVerts := false } rfl
    rw [this.2]
    exact h2

/-! ### C53 -/

/-- C53: the reader takes at most the declared number of vertices. -/
def C53_statement : Prop := ∀ (ν : Type) (f : NumFmt ν) (k : Consts ν) (text : Str) (hdr names data : List Str) (n : Nat),
  Parser.fileLines text = hdr ++ c!"end_header" :: data → Header hdr n names → n < 4294967295 → (plyRead f k text).length ≤ n

/-- A text with one declared vertex and two vertex lines. -/
def twoVerts : Str := c!"element vertex 1\nproperty float x\nend_header\n3\n4\n"

theorem twoVerts_header : Header [c!"element vertex 1", c!"property float x"] 1 [c!"x"] where
  lines := by intro l hl; simp at hl; rcases hl with rfl | rfl <;> decide
  parts := ⟨[], c!"element vertex 1", [c!"property float x"], [], rfl, by decide, by simp, .prop (t := c!"float") (by decide) .nil, by simp, by simp⟩

/-- It is false: one line too many is read. -/
theorem C53_refuted : ¬ C53_statement := by
  intro h
  have := h Int intFmt ⟨0, 1⟩ twoVerts [c!"element vertex 1", c!"property float x"] [c!"x"] [c!"3", c!"4"] 1 (by decide) twoVerts_header (by decide)
  revert this
  decide +kernel

/-- The vertex lines the reader uses are the first `n + 1` data lines that are not blank, in order; a line that
    repeats an id replaces the landmark.  So at most one line too many is read, and nothing is lost when the
    file has no more vertex lines than declared. -/
theorem C53_partial (f : NumFmt ν) (k : Consts ν) {text : Str} {hdr names data : List Str} {n : Nat}
    (ht : Parser.fileLines text = hdr ++ c!"end_header" :: data) (hh : Header hdr n names) (hn : n < 4294967295) :
    plyRead f k text = putAll [] (vertices f k (names.map propOf) 0 ((solid data).take (n + 1))) ∧
    (plyRead f k text).length ≤ n + 1 ∧
    ((solid data).length ≤ n → (solid data).take (n + 1) = solid data) := by
  have e : plyRead f k text = putAll [] (vertices f k (names.map propOf) 0 ((solid data).take (n + 1))) := by
    unfold plyRead
    rw [ht, plyLoop_header k hdr data hh.lines]
    obtain ⟨h1, h2⟩ := headerOf_header hh (by omega)
    rw [plyLoop_data k (headerOf {} hdr) (by omega) data 0 [] (by omega), h1, h2]
    rfl
  refine ⟨e, ?_, ?_⟩
  · rw [e]
    have h1 := putAll_length (vertices f k (names.map propOf) 0 ((solid data).take (n + 1))) []
    rw [vertices_length, List.length_take] at h1
    simp only [List.length_nil] at h1
    omega
  · intro h
    exact List.take_of_length_le (by omega)

/-- The landmarks of the result: for each id the last vertex line used that has it. -/
theorem C53_last_wins {α : Type} (es : List (Int × α)) (i : Int) : Ascending (putAll [] es) ∧
    valueAt (putAll [] es) i = (es.reverse.find? (fun e => decide (e.1 = i))).map (·.2) := by
  have gen : ∀ (es m : List (Int × α)), Ascending m → Ascending (putAll m es) ∧
      valueAt (putAll m es) i = match es.reverse.find? (fun e => decide (e.1 = i)) with
        | some e => some e.2
        | none => valueAt m i := by
    intro es
    induction es with
    | nil => intro m hm; exact ⟨hm, rfl⟩
    | cons e es ih =>
      intro m hm
      have := ih (mapPut m e.1 e.2) (mapPut_ascending hm e.1 e.2)
      refine ⟨this.1, ?_⟩
      show valueAt (putAll (mapPut m e.1 e.2) es) i = _
      rw [this.2, List.reverse_cons, List.find?_append]
      cases hf : es.reverse.find? (fun e => decide (e.1 = i)) with
      | some x => rfl
      | none =>
        simp only [valueAt_mapPut, Option.none_or]
        by_cases hi : i = e.1
        · subst hi; simp
        · have : ¬ e.1 = i := fun x => hi x.symm
          simp [hi, this]
  have := gen es [] (by simp [Ascending])
  refine ⟨this.1, ?_⟩
  rw [this.2]
  cases es.reverse.find? (fun e => decide (e.1 = i)) <;> rfl

/-! ### C90: fields go where the header says -/

/-- `p` is the `i`-th declared property and no other. -/
def SoleAt (props : List VProp) (p : VProp) (i : Nat) : Prop := props[i]? = some p ∧ ∀ j, props[j]? = some p → j = i

/-- `x` is the value of property `p`: read from the field at its position; the default when the line has no field
    for it. -/
def FieldIs {β : Type} (props : List VProp) (toks : List Str) (p : VProp) (x dflt : β) (read : Str → β) : Prop :=
  (∀ i t, SoleAt props p i → toks[i]? = some t → x = read t) ∧ ((∀ j, j < toks.length → props[j]? ≠ some p) → x = dflt)

theorem putFields_get {β : Type} (g : Vert ν → β) (p : VProp) (read : Str → β) (hp : ∀ v t, Word t → g (putField f v p t) = read t)
    (hq : ∀ v q t, q ≠ p → g (putField f v q t) = g v) (props : List VProp) : ∀ (toks : List Str), (∀ t ∈ toks, Word t) →
    ∀ v, FieldIs props toks p (g (putFields f props toks v)) (g v) read := by
  induction props with
  | nil =>
    intro toks _ v
    refine ⟨?_, ?_⟩
    · intro i t hs; simp [SoleAt] at hs
    · intro _; simp [putFields]
  | cons q props ih =>
    intro toks ht v
    cases toks with
    | nil => exact ⟨by intro i t _ h; simp at h, by intro _; simp [putFields]⟩
    | cons t toks =>
      have ih := ih toks (fun x hx => ht x (by simp [hx])) (putField f v q t)
      show FieldIs _ _ _ (g (putFields f props toks (putField f v q t))) _ _
      refine ⟨?_, ?_⟩
      · intro i u hs hu
        cases i with
        | zero =>
          have hqp : q = p := by simpa using hs.1
          simp at hu
          subst hqp hu
          rw [ih.2 ?_, hp v t (ht t (by simp))]
          intro j _ hj
          have := hs.2 (j + 1) (by simpa using hj)
          omega
        | succ i =>
          refine ih.1 i u ⟨by simpa using hs.1, ?_⟩ (by simpa using hu)
          intro j hj
          have := hs.2 (j + 1) (by simpa using hj)
          omega
      · intro h
        have hqp : q ≠ p := by
          intro e; subst e
          exact h 0 (by simp) (by simp)
        rw [ih.2 ?_, hq v q t hqp]
        intro j hj hj'
        exact h (j + 1) (by simp; omega) (by simpa using hj')

theorem extract_token {α : Type} (p : Extractor α) {t : Str} (h : Word t) (v : α) : (extract p (some t) v).2 = (p t).1 := by
  have := extract_nonempty p h.1 h.2 [] v
  rw [List.append_nil] at this
  rw [this]

theorem natEx_lt {m : Nat} (hm : 0 < m) (s : Str) : (natEx m s).1 < m := by
  unfold natEx
  simp only
  split
  · exact hm
  · split
    · show m - 1 < m; omega
    · rename_i h
      show (if _ then (m - digitsVal _) % m else _) < m
      split
      · exact Nat.mod_lt _ hm
      · omega

/-- Every field of a vertex line goes to the property the header declares at its position, whatever the order of the
    properties; a property without a field has its default (0, white, the running number).  Numbers are read as
    the stream extraction of the field, colours as an `int` cast to a byte. -/
theorem C90_fields (f : NumFmt ν) (k : Consts ν) (props : List VProp) (count : Nat) (line : Str) :
    let e := vertexOf f k props count (words line)
    let num := fun t => (f.parse t).1
    let byte := fun t => toByte (cInt t).1
    FieldIs props (words line) .vx e.2.loc.x k.zero num ∧ FieldIs props (words line) .vy e.2.loc.y k.zero num ∧
    FieldIs props (words line) .vz e.2.loc.z k.zero num ∧ FieldIs props (words line) .nx e.2.normal.x k.zero num ∧
    FieldIs props (words line) .ny e.2.normal.y k.zero num ∧ FieldIs props (words line) .nz e.2.normal.z k.zero num ∧
    FieldIs props (words line) .cr e.2.color.r 255 byte ∧ FieldIs props (words line) .cg e.2.color.g 255 byte ∧
    FieldIs props (words line) .cb e.2.color.b 255 byte ∧ FieldIs props (words line) .index e.1 (count : Int) (fun t => (cInt64 t).1) ∧
    FieldIs props (words line) .observations e.2.observations.val 0 (fun t => (cUnsigned t).1) ∧ e.2.scale = k.one := by
  have hw : ∀ t ∈ words line, Word t := fun t ht => words_mem ht
  have obs : ∀ (v : Vert ν) (t : Str), Word t → (toUnsigned (putField f v .observations t).observations).val = (cUnsigned t).1 := by
    intro v t ht
    show (extract cUnsigned (some t) v.observations).2 % 4294967296 = _
    rw [extract_token _ ht]
    exact Nat.mod_eq_of_lt (natEx_lt (by decide) t)
  refine ⟨?_, ?_, ?_, ?_, ?_, ?_, ?_, ?_, ?_, ?_, ?_, rfl⟩
  · exact putFields_get (fun v => v.loc.x) .vx _ (fun v t ht => extract_token _ ht _) (by intro v q t hq; cases q <;> first | rfl | exact absurd rfl hq) props _ hw _
  · exact putFields_get (fun v => v.loc.y) .vy _ (fun v t ht => extract_token _ ht _) (by intro v q t hq; cases q <;> first | rfl | exact absurd rfl hq) props _ hw _
  · exact putFields_get (fun v => v.loc.z) .vz _ (fun v t ht => extract_token _ ht _) (by intro v q t hq; cases q <;> first | rfl | exact absurd rfl hq) props _ hw _
  · exact putFields_get (fun v => v.normal.x) .nx _ (fun v t ht => extract_token _ ht _) (by intro v q t hq; cases q <;> first | rfl | exact absurd rfl hq) props _ hw _
  · exact putFields_get (fun v => v.normal.y) .ny _ (fun v t ht => extract_token _ ht _) (by intro v q t hq; cases q <;> first | rfl | exact absurd rfl hq) props _ hw _
  · exact putFields_get (fun v => v.normal.z) .nz _ (fun v t ht => extract_token _ ht _) (by intro v q t hq; cases q <;> first | rfl | exact absurd rfl hq) props _ hw _
  · exact putFields_get (fun v => v.color.r) .cr _ (fun v t ht => congrArg toByte (extract_token _ ht _)) (by intro v q t hq; cases q <;> first | rfl | exact absurd rfl hq) props _ hw _
  · exact putFields_get (fun v => v.color.g) .cg _ (fun v t ht => congrArg toByte (extract_token _ ht _)) (by intro v q t hq; cases q <;> first | rfl | exact absurd rfl hq) props _ hw _
  · exact putFields_get (fun v => v.color.b) .cb _ (fun v t ht => congrArg toByte (extract_token _ ht _)) (by intro v q t hq; cases q <;> first | rfl | exact absurd rfl hq) props _ hw _
  · exact putFields_get (fun v => v.id) .index _ (fun v t ht => extract_token _ ht _) (by intro v q t hq; cases q <;> first | rfl | exact absurd rfl hq) props _ hw _
  · exact putFields_get (fun v => (toUnsigned v.observations).val) .observations _ obs (by intro v q t hq; cases q <;> first | rfl | exact absurd rfl hq) props _ hw _

/-- The names the reader knows, in any letter case; any other name is skipped. -/
theorem C90_names (name : Str) :
    (propOf name = .vx ↔ name.map toLower = c!"x") ∧ (propOf name = .vy ↔ name.map toLower = c!"y") ∧
    (propOf name = .vz ↔ name.map toLower = c!"z") ∧
    (propOf name = .nx ↔ name.map toLower = c!"nx" ∨ name.map toLower = c!"vsfm_cnx") ∧
    (propOf name = .ny ↔ name.map toLower = c!"ny" ∨ name.map toLower = c!"vsfm_cny") ∧
    (propOf name = .nz ↔ name.map toLower = c!"nz" ∨ name.map toLower = c!"vsfm_cnz") ∧
    (propOf name = .cr ↔ name.map toLower = c!"red" ∨ name.map toLower = c!"diffuse_red") ∧
    (propOf name = .cg ↔ name.map toLower = c!"green" ∨ name.map toLower = c!"diffuse_green") ∧
    (propOf name = .cb ↔ name.map toLower = c!"blue" ∨ name.map toLower = c!"diffuse_blue") ∧
    (propOf name = .index ↔ name.map toLower = c!"track_id") ∧
    (propOf name = .observations ↔ name.map toLower = c!"observations" ∨ name.map toLower = c!"number_of_camera_sees_this_point") := by
  unfold propOf
  generalize name.map toLower = s
  have key : ∀ (t : List (Str × VProp)) (p : VProp), p ≠ .invalid → (t.map Prod.fst).Nodup →
      (((t.find? (fun e => e.1 == s)).map (·.2)).getD .invalid = p ↔ (s, p) ∈ t) := by
    intro t p hp hnd
    induction t with
    | nil => simp [hp.symm]
    | cons e t ih =>
      have hnd' := List.nodup_cons.1 hnd
      by_cases he : e.1 = s
      · simp only [List.find?_cons, he, beq_self_eq_true, Option.map_some, Option.getD_some]
        constructor
        · intro h; rw [← he, ← h]; simp
        · intro h
          rcases List.mem_cons.1 h with h | h
          · rw [← h]
          · exact absurd (List.mem_map.2 ⟨_, h, he.symm⟩) hnd'.1
      · have hb : (e.1 == s) = false := by simp [he]
        simp only [List.find?_cons, hb]
        rw [ih hnd'.2]
        constructor
        · intro h; exact List.mem_cons_of_mem _ h
        · intro h
          rcases List.mem_cons.1 h with h | h
          · exact absurd (by rw [← h]) he
          · exact h
  have hnd : (propTable.map Prod.fst).Nodup := by decide +kernel
  refine ⟨?_, ?_, ?_, ?_, ?_, ?_, ?_, ?_, ?_, ?_, ?_⟩ <;> (rw [key propTable _ (by decide) hnd]; simp [propTable])

/-- A header with the properties in an unusual order, an unknown one, and a face element. -/
def oddHeader : List Str :=
  [c!"ply", c!"comment hi", c!"element vertex 2", c!"property uchar Diffuse_Red", c!"property float z", c!"property float quality",
   c!"property float X", c!"element face 0", c!"property list uchar int vertex_index"]

theorem oddHeader_ok : Header oddHeader 2 [c!"Diffuse_Red", c!"z", c!"quality", c!"X"] where
  lines := by
    intro l hl e
    subst e
    revert hl
    decide +kernel
  parts := by
    refine ⟨[c!"ply", c!"comment hi"], c!"element vertex 2", [c!"property uchar Diffuse_Red", c!"property float z", c!"property float quality", c!"property float X"],
      [c!"element face 0", c!"property list uchar int vertex_index"], rfl, by decide +kernel, ?_, ?_, ?_, ?_⟩
    · intro x hx hv
      obtain ⟨n, hn⟩ := hv
      simp at hx
      rcases hx with rfl | rfl
      · have : words (c!"ply") = [c!"ply"] := by decide +kernel
        rw [this] at hn; simp at hn
      · have : words (c!"comment hi") = [c!"comment", c!"hi"] := by decide +kernel
        rw [this] at hn; simp at hn
    · exact .prop (t := c!"uchar") (by decide +kernel) (.prop (t := c!"float") (by decide +kernel)
        (.prop (t := c!"float") (by decide +kernel) (.prop (t := c!"float") (by decide +kernel) .nil)))
    · intro x hx hv
      obtain ⟨n, hn⟩ := hv
      simp at hx
      rcases hx with rfl | rfl
      · have : words (c!"element face 0") = [c!"element", c!"face", c!"0"] := by decide +kernel
        rw [this] at hn; simp at hn
      · have : words (c!"property list uchar int vertex_index") = [c!"property", c!"list", c!"uchar", c!"int", c!"vertex_index"] := by decide +kernel
        rw [this] at hn; simp at hn
    · intro x hx
      simp at hx; subst hx
      decide +kernel

example : vertexOf intFmt ⟨0, 1⟩ ([c!"Diffuse_Red", c!"z", c!"quality", c!"X"].map propOf) 7 (words (c!"300 -5 9 12")) =
    (7, ⟨⟨12, 0, -5⟩, 1, ⟨0, 0, 0⟩, ⟨44, 255, 255⟩, 0⟩) ∧ SoleAt ([c!"Diffuse_Red", c!"z", c!"quality", c!"X"].map propOf) .vx 3 := by
  refine ⟨by decide +kernel, by decide +kernel, ?_⟩
  intro j hj
  match j, hj with
  | 0, h => exact absurd h (by decide +kernel)
  | 1, h => exact absurd h (by decide +kernel)
  | 2, h => exact absurd h (by decide +kernel)
  | 3, _ => rfl
  | j + 4, h => simp at h

end Vital.IO
