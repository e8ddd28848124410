import Verif.Rt.Interface
import Verif.Solidity
import Verif.Valid
import Mathlib.Data.List.Basic

/-!
# Reading the text of an interface
-/

namespace Export
open Sol

/-! ## Tokens -/

/-- A word. -/
def Wd (w : List Char) : Prop := w ≠ [] ∧ ∀ c ∈ w, isWord c = true

/-- A word cannot go on here. -/
def Sep : List Char → Prop
  | [] => True
  | c :: _ => isWord c = false

theorem lex_char {w : List Char} {c : Char} {cs : List Char} (h : isWord c = true) : lex .code w (c :: cs) = lex .code (w ++ [c]) cs := by
  have h1 : c ≠ '/' := by rintro rfl; exact absurd h (by decide)
  rw [lex]
  · rw [if_pos h]
  · intro _ e; exact absurd e h1
  · intro _ e; exact absurd e h1

theorem lex_word' {cs : List Char} : ∀ {w acc : List Char}, (∀ c ∈ w, isWord c = true) → lex .code acc (w ++ cs) = lex .code (acc ++ w) cs
  | [], acc, _ => by simp
  | c :: w, acc, h => by
    rw [List.cons_append, lex_char (h c (by simp)), lex_word' (fun d hd => h d (by simp [hd]))]
    simp

theorem lex_sep {w cs : List Char} (hs : Sep cs) (hw : w ≠ []) : lex .code w cs = .word w :: lex .code [] cs := by
  have hf : flush w = [.word w] := if_neg hw
  have hn : flush [] = [] := rfl
  cases cs with
  | nil => rw [lex, lex, hf]; rfl
  | cons c cs =>
    have hs : isWord c = false := hs
    rw [lex.eq_def, lex.eq_def .code []]
    simp only [hf, hn]
    split <;> simp [hs]

theorem lex_wd {w cs : List Char} (hw : Wd w) (hs : Sep cs) : lex .code [] (w ++ cs) = .word w :: lex .code [] cs := by
  rw [lex_word' hw.2, List.nil_append, lex_sep hs hw.1]

theorem lex_function (cs : List Char) : lex .code [] ("    function ".toList ++ cs) = .word "function".toList :: lex .code [] cs := rfl

def headerToks : List Tok :=
  [.word "pragma".toList, .word "solidity".toList, .sym '^', .word ['0'], .sym '.', .word ['8'], .sym '.', .word ['2', '3']]

theorem lex_header (cs : List Char) : lex .code [] (header ++ cs) = headerToks ++ .sym ';' :: lex .code [] cs := by
  krfl

theorem lex_event (cs : List Char) : lex .code [] ("    event ".toList ++ cs) = .word "event".toList :: lex .code [] cs := rfl
theorem lex_error (cs : List Char) : lex .code [] ("    error ".toList ++ cs) = .word "error".toList :: lex .code [] cs := rfl
theorem lex_struct (cs : List Char) : lex .code [] ("    struct ".toList ++ cs) = .word "struct".toList :: lex .code [] cs := rfl
theorem lex_interface (cs : List Char) : lex .code [] ("interface ".toList ++ cs) = .word "interface".toList :: lex .code [] cs := rfl
theorem lex_returns (cs : List Char) : lex .code [] (" returns ".toList ++ cs) = .word "returns".toList :: lex .code [] cs := rfl
theorem lex_open (cs : List Char) : lex .code [] ("(".toList ++ cs) = .sym '(' :: lex .code [] cs := rfl
theorem lex_close (cs : List Char) : lex .code [] (")".toList ++ cs) = .sym ')' :: lex .code [] cs := rfl
theorem lex_semi (cs : List Char) : lex .code [] (";".toList ++ cs) = .sym ';' :: lex .code [] cs := rfl
theorem lex_semi_nl (cs : List Char) : lex .code [] (";\n".toList ++ cs) = .sym ';' :: lex .code [] cs := rfl
theorem lex_nl (cs : List Char) : lex .code [] ("\n".toList ++ cs) = lex .code [] cs := rfl
theorem lex_space (cs : List Char) : lex .code [] (" ".toList ++ cs) = lex .code [] cs := rfl
theorem lex_comma (cs : List Char) : lex .code [] (", ".toList ++ cs) = .sym ',' :: lex .code [] cs := rfl
theorem lex_indent (cs : List Char) : lex .code [] ("        ".toList ++ cs) = lex .code [] cs := rfl
theorem lex_brace (cs : List Char) : lex .code [] (" {\n".toList ++ cs) = .sym '{' :: lex .code [] cs := rfl
theorem lex_brace2 (cs : List Char) : lex .code [] (" {\n\n".toList ++ cs) = .sym '{' :: lex .code [] cs := rfl
theorem lex_unbrace (cs : List Char) : lex .code [] ("    }\n\n".toList ++ cs) = .sym '}' :: lex .code [] cs := rfl
theorem lex_end_error (cs : List Char) : lex .code [] (");\n".toList ++ cs) = .sym ')' :: .sym ';' :: lex .code [] cs := rfl
theorem lex_end : lex .code [] "\n}".toList = [.sym '}'] := rfl

/-- `[]`, `n` times. -/
def dimText (n : Nat) : Text := (List.replicate n "[]".toList).flatten
def dimToks (n : Nat) : List Tok := (List.replicate n [Tok.sym '[', Tok.sym ']']).flatten

theorem lex_dims (cs : List Char) : ∀ n, lex .code [] (dimText n ++ cs) = dimToks n ++ lex .code [] cs
  | 0 => rfl
  | n + 1 => by
    rw [dimText, dimToks, List.replicate_succ, List.replicate_succ, List.flatten_cons, List.flatten_cons, List.append_assoc, List.append_assoc]
    exact congrArg (fun x => Tok.sym '[' :: Tok.sym ']' :: x) (lex_dims cs n)

/-- Tokens of a type. -/
def _root_.Sol.STy.toks (t : STy) : List Tok := .word t.base :: dimToks t.dims

/-- The type that a text names. -/
def AT.sty : AT → STy
  | .array t => ⟨t.sty.base, t.sty.dims + 1⟩
  | t => ⟨t.name.toList, 0⟩

theorem dimText_succ (n : Nat) : dimText (n + 1) = dimText n ++ "[]".toList := by
  rw [dimText, dimText, List.replicate_succ', List.flatten_append]
  simp

theorem AT.name_sty : ∀ t : AT, t.name.toList = t.sty.base ++ dimText t.sty.dims
  | .array t => by
    rw [AT.name, String.toList_append, AT.name_sty t, AT.sty, dimText_succ, List.append_assoc]
  | .prim _ | .struct _ _ _ _ | .enum _ _ | .none => by simp [AT.sty, dimText]

theorem sep_dims {cs : List Char} (h : Sep cs) : ∀ n, Sep (dimText n ++ cs)
  | 0 => h
  | _ + 1 => rfl

theorem lex_ty {t : AT} (ht : Wd t.sty.base) {cs : List Char} (h : Sep cs) : lex .code [] (t.name.toList ++ cs) = t.sty.toks ++ lex .code [] cs := by
  rw [AT.name_sty, List.append_assoc, lex_wd ht (sep_dims h _), lex_dims]
  rfl

/-- Tokens of a parameter without data location. -/
def _root_.Sol.Param.toks (p : Param) : List Tok :=
  p.ty.toks ++ (if p.indexed then [.word "indexed".toList] else []) ++ (match p.name with | some x => [.word x] | none => [])

/-- The text `f x` has the tokens `g x`, whatever follows. -/
def Lexes (t : Text) (ts : List Tok) : Prop := ∀ cs, Sep cs → lex .code [] (t ++ cs) = ts ++ lex .code [] cs

theorem lexes_param {x : String} {t : AT} (ht : Wd t.sty.base) (hx : Wd x.toList) :
    Lexes (t.name.toList ++ " ".toList ++ x.toList) (Param.toks ⟨t.sty, none, false, some x.toList⟩) := by
  intro cs h
  rw [List.append_assoc, List.append_assoc, lex_ty ht (by exact rfl), lex_space, lex_wd hx h]
  simp [Param.toks]

theorem lexes_result {t : AT} (ht : Wd t.sty.base) : Lexes t.name.toList (Param.toks ⟨t.sty, none, false, none⟩) := by
  intro cs h
  rw [lex_ty ht h]
  simp [Param.toks]

theorem lex_indexed {cs : List Char} (h : Sep cs) : lex .code [] (" indexed".toList ++ cs) = .word "indexed".toList :: lex .code [] cs :=
  lex_wd (w := "indexed".toList) ⟨by simp, by decide⟩ h

theorem lex_anonymous {cs : List Char} (h : Sep cs) : lex .code [] (" anonymous".toList ++ cs) = .word "anonymous".toList :: lex .code [] cs :=
  lex_wd (w := "anonymous".toList) ⟨by simp, by decide⟩ h

theorem lexes_field {x : String} {t : AT} {ix pos : Bool} (ht : Wd t.sty.base) (hx : Wd x.toList) :
    Lexes (t.name.toList ++ (if ix then " indexed".toList else []) ++ (if pos then [] else " ".toList ++ x.toList))
      (Param.toks ⟨t.sty, none, ix, if pos then none else some x.toList⟩) := by
  intro cs h
  have hs : Sep ((if pos then [] else " ".toList ++ x.toList) ++ cs) := by cases pos <;> [rfl; exact h]
  have h2 : lex .code [] ((if pos then [] else " ".toList ++ x.toList) ++ cs) =
      (match (if pos then none else some x.toList : Option (List Char)) with | some x => [.word x] | none => []) ++ lex .code [] cs := by
    cases pos
    · simp only [Bool.false_eq_true, if_false, List.append_assoc]
      rw [lex_space, lex_wd hx h]
      rfl
    · rfl
  rw [List.append_assoc, List.append_assoc]
  cases ix
  · rw [lex_ty ht (by exact hs)]
    simp only [Bool.false_eq_true, if_false, List.nil_append, h2, Param.toks, List.append_nil, List.append_assoc]
  · rw [lex_ty ht (by exact rfl)]
    simp only [if_true, lex_indexed hs, h2, Param.toks, List.append_assoc, List.cons_append, List.nil_append]

/-- Tokens with commas between. -/
def joinToks : List (List Tok) → List Tok
  | [] => []
  | [t] => t
  | t :: ts => t ++ .sym ',' :: joinToks ts

theorem lexes_join {α : Type} {f : α → Text} {g : α → List Tok} : ∀ {l : List α}, (∀ x ∈ l, Lexes (f x) (g x)) → Lexes (joinComma (l.map f)) (joinToks (l.map g))
  | [], _ => fun cs _ => rfl
  | [x], h => fun cs hc => h x (by simp) cs hc
  | x :: y :: l, h => fun cs hc => by
    have := lexes_join (l := y :: l) (fun z hz => h z (by simp [hz])) cs hc
    simp only [List.map_cons, joinComma, joinToks, List.append_assoc] at this ⊢
    rw [h x (by simp) _ (by exact rfl), lex_comma, this]
    rfl

theorem lexes_space {l : List Text} (h : ∀ w ∈ l, Wd w) : Lexes (joinSpace l) (l.map Tok.word) := by
  induction l with
  | nil => exact fun cs _ => rfl
  | cons w l ih =>
    intro cs hc
    cases l with
    | nil => exact lex_wd (h w (by simp)) hc
    | cons w' l =>
      have := ih (fun z hz => h z (by simp [hz])) cs hc
      simp only [joinSpace, List.append_assoc, List.map_cons] at this ⊢
      rw [lex_wd (h w (by simp)) (by exact rfl), lex_space, this]
      rfl

/-! ## Reading tokens -/

theorem upTo_append {c : Char} {b : List Tok} : ∀ {a : List Tok}, Tok.sym c ∉ a → upTo c (a ++ .sym c :: b) = some (a, b)
  | [], _ => by simp [upTo]
  | t :: a, h => by
    simp only [List.mem_cons, not_or] at h
    rw [List.cons_append, upTo, if_neg (fun e => h.1 e.symm), upTo_append h.2]
    rfl

theorem mem_dimToks {x : Tok} : ∀ {n : Nat}, x ∈ dimToks n → x = .sym '[' ∨ x = .sym ']'
  | n, h => by
    simp only [dimToks, List.mem_flatten, List.mem_replicate] at h
    obtain ⟨l, ⟨-, rfl⟩, h⟩ := h
    simpa using h

theorem Param.sym_toks {p : Param} {c : Char} (h : Tok.sym c ∈ p.toks) : c = '[' ∨ c = ']' := by
  simp only [Param.toks, STy.toks, List.mem_append, List.mem_cons, reduceCtorEq, false_or] at h
  rcases h with (h | h) | h
  · simpa using mem_dimToks h
  · split at h <;> simp at h
  · split at h <;> simp at h

theorem sym_joinToks {c : Char} : ∀ {l : List (List Tok)}, Tok.sym c ∈ joinToks l → c = ',' ∨ ∃ ts ∈ l, Tok.sym c ∈ ts
  | [], h => by simp [joinToks] at h
  | [t], h => .inr ⟨t, by simp, h⟩
  | t :: t' :: l, h => by
    simp only [joinToks, List.mem_append, List.mem_cons, Tok.sym.injEq] at h
    rcases h with h | h | h
    · exact .inr ⟨t, by simp, h⟩
    · exact .inl h
    · rcases sym_joinToks (l := t' :: l) h with h | ⟨ts, h1, h2⟩
      · exact .inl h
      · exact .inr ⟨ts, by simp [List.mem_cons.mp h1], h2⟩

theorem sym_params {c : Char} {ps : List Param} (h : Tok.sym c ∈ joinToks (ps.map Param.toks)) : c = ',' ∨ c = '[' ∨ c = ']' := by
  rcases sym_joinToks h with h | ⟨ts, h1, h2⟩
  · exact .inl h
  · obtain ⟨p, -, rfl⟩ := List.mem_map.mp h1
    exact .inr (Param.sym_toks h2)

theorem splitComma_append {cur : List Tok} {b : List Tok} : ∀ {a : List Tok}, Tok.sym ',' ∉ a → splitComma cur (a ++ b) = splitComma (cur ++ a) b
  | [], _ => by simp
  | t :: a, h => by
    simp only [List.mem_cons, not_or] at h
    rw [List.cons_append, splitComma, splitComma_append h.2]
    · simp
    · exact fun e => h.1 e.symm

theorem splitComma_join : ∀ {l : List (List Tok)}, l ≠ [] → (∀ ts ∈ l, Tok.sym ',' ∉ ts) → splitComma [] (joinToks l) = l
  | [], h, _ => absurd rfl h
  | [t], _, h => by
    have := splitComma_append (cur := []) (b := []) (h t (by simp))
    rw [List.append_nil] at this
    rw [joinToks, this]
    simp [splitComma]
  | t :: t' :: l, _, h => by
    rw [joinToks, splitComma_append (h t (by simp)), List.nil_append, splitComma, splitComma_join (by simp) (fun ts hts => h ts (by simp [List.mem_cons.mp hts]))]
    simp

theorem readDims_toks {ts : List Tok} (h : ∀ us, ts ≠ .sym '[' :: .sym ']' :: us) : ∀ n, readDims (dimToks n ++ ts) = (n, ts)
  | 0 => by
    show readDims ts = _
    rw [readDims]
    exact fun us e => h us e
  | n + 1 => by
    have := readDims_toks h n
    rw [dimToks, List.replicate_succ, List.flatten_cons, List.append_assoc]
    show readDims (.sym '[' :: .sym ']' :: (dimToks n ++ ts)) = _
    rw [readDims, this]

theorem isIdent_not {w : List Char} (h : isIdent w = true) {s : String} (hs : s ∈ keywords ++ valueTypes ++ refTypes) : w ≠ s.toList := by
  rintro rfl
  simp only [isIdent, Bool.and_eq_true, Bool.not_eq_true', List.contains_eq_mem, decide_eq_false_iff_not] at h
  exact h.2 (List.mem_map_of_mem hs)

theorem isIdent_wd {w : List Char} (h : isIdent w = true) : Wd w := by
  simp only [isIdent, Bool.and_eq_true, List.all_eq_true] at h
  refine ⟨?_, h.1.1⟩
  rintro rfl
  simp at h

/-- It can be read back. -/
structure Reads (p : Param) : Prop where
  loc : p.loc = none
  name : ∀ x, p.name = some x → isIdent x = true

theorem readLoc_none {w : List Char} {ts : List Tok} (h : ∀ s ∈ ["memory", "calldata", "storage"], w ≠ s.toList) : readLoc (.word w :: ts) = (none, .word w :: ts) := by
  rw [readLoc, if_neg (h _ (by simp)), if_neg (h _ (by simp)), if_neg (h _ (by simp))]

theorem readIndexed_none {w : List Char} {ts : List Tok} (h : w ≠ "indexed".toList) : readIndexed (.word w :: ts) = (false, .word w :: ts) := by
  rw [readIndexed, if_neg h]

theorem readLoc_ident {w : List Char} {ts : List Tok} (h : isIdent w = true) : readLoc (.word w :: ts) = (none, .word w :: ts) :=
  readLoc_none (fun s hs => isIdent_not h (by
    simp only [List.mem_cons, List.not_mem_nil, or_false] at hs
    rcases hs with rfl | rfl | rfl <;> decide))

theorem readParam_toks {p : Param} (h : Reads p) : readParam p.toks = some p := by
  obtain ⟨⟨b, n⟩, l, i, x⟩ := p
  obtain rfl : l = none := h.loc
  have hx := h.name
  have hi : ∀ ts, readIndexed (.word "indexed".toList :: ts) = (true, ts) := fun ts => by rw [readIndexed, if_pos rfl]
  have hl : ∀ ts, readLoc (.word "indexed".toList :: ts) = (none, .word "indexed".toList :: ts) := fun ts => readLoc_none (by decide)
  simp only [Param.toks, STy.toks, List.cons_append, List.append_assoc, readParam]
  rw [readDims_toks]
  · cases x with
    | none =>
      cases i
      · rfl
      · simp only [if_true, List.append_nil]
        rw [hl, hi]
    | some x =>
      have hy := hx x rfl
      clear hx
      have h4 := isIdent_not hy (s := "indexed") (by decide)
      cases i
      · simp only [Bool.false_eq_true, if_false, List.nil_append]
        rw [readLoc_ident hy]
        simp only
        rw [readIndexed_none h4]
        simp only [hy, if_true]
      · simp only [if_true, List.cons_append, List.nil_append]
        rw [hl]
        simp only
        rw [hi]
        simp only [hy, if_true]
  · intro us e
    cases i <;> cases x <;> simp at e

theorem mapM_readParam {ps : List Param} (h : ∀ p ∈ ps, Reads p) : (ps.map Param.toks).mapM readParam = some ps := by
  induction ps with
  | nil => rfl
  | cons p ps ih =>
    rw [List.map_cons, List.mapM_cons, readParam_toks (h p (by simp)), ih (fun q hq => h q (by simp [hq]))]
    rfl

theorem joinToks_ne {l : List (List Tok)} (h : l ≠ []) (hl : ∀ ts ∈ l, ts ≠ []) : joinToks l ≠ [] := by
  match l, h with
  | [t], _ => exact hl t (by simp)
  | t :: t' :: l, _ => simp [joinToks]

theorem _root_.Sol.Param.toks_ne (p : Param) : p.toks ≠ [] := by simp [Param.toks, STy.toks]

theorem readParams_toks {ps : List Param} (h : ∀ p ∈ ps, Reads p) : readParams (joinToks (ps.map Param.toks)) = some ps := by
  unfold readParams
  cases ps with
  | nil => rfl
  | cons p ps =>
    rw [if_neg (joinToks_ne (by simp) ?_), splitComma_join (by simp), mapM_readParam h]
    · intro ts hts
      obtain ⟨q, -, rfl⟩ := List.mem_map.mp hts
      intro hc
      rcases Param.sym_toks hc with h | h <;> exact absurd h (by decide)
    · intro ts hts
      obtain ⟨q, -, rfl⟩ := List.mem_map.mp hts
      exact q.toks_ne

theorem readMembers_append {cur b : List Tok} : ∀ {a : List Tok}, Tok.sym ';' ∉ a → readMembers cur (a ++ b) = readMembers (cur ++ a) b
  | [], _ => by simp
  | t :: a, h => by
    simp only [List.mem_cons, not_or] at h
    rw [List.cons_append, readMembers, readMembers_append h.2]
    · simp
    · exact fun e => h.1 e.symm

theorem readMembers_toks {ps : List Param} (h : ∀ p ∈ ps, Reads p) : readMembers [] (ps.flatMap fun p => p.toks ++ [.sym ';']) = some ps := by
  induction ps with
  | nil => simp [readMembers]
  | cons p ps ih =>
    rw [List.flatMap_cons, List.append_assoc, readMembers_append, List.nil_append, List.singleton_append, readMembers, readParam_toks (h p (by simp)),
      ih (fun q hq => h q (by simp [hq]))]
    · rfl
    · intro hc
      rcases Param.sym_toks hc with h | h <;> exact absurd h (by decide)

theorem readMods_toks {ms : List (List Char)} {ts : List Tok} (h : ∀ m ∈ ms, m ≠ "returns".toList) (ht : ts = [] ∨ ∃ us, ts = .word "returns".toList :: us) :
    readMods (ms.map Tok.word ++ ts) = some (ms, ts) := by
  induction ms with
  | nil =>
    rcases ht with rfl | ⟨us, rfl⟩
    · rfl
    · rfl
  | cons m ms ih =>
    rw [List.map_cons, List.cons_append, readMods, if_neg (h m (by simp)), ih (fun x hx => h x (by simp [hx]))]
    rfl

/-! ## Declarations -/

def fieldParam (f : String × AT) : Param := ⟨f.2.sty, none, false, some f.1.toList⟩
def resultParam (t : AT) : Param := ⟨t.sty, none, false, none⟩

def Rets.params : Rets → List Param
  | .none => []
  | .one t => [resultParam t]
  | .tuple ts => ts.map resultParam

def HFun.item (f : HFun) : Item := .function f.name.toList (f.params.map fieldParam) f.allMods f.rets.params

def retToks (ps : List Param) : List Tok :=
  if ps = [] then [] else .word "returns".toList :: .sym '(' :: (joinToks (ps.map Param.toks) ++ [.sym ')'])

def HFun.toks (f : HFun) : List Tok :=
  .word "function".toList :: .word f.name.toList :: .sym '(' ::
    (joinToks ((f.params.map fieldParam).map Param.toks) ++ .sym ')' :: (f.allMods.map Tok.word ++ retToks f.rets.params))

/-- What is needed to read a function back. -/
structure HFun.Good (f : HFun) : Prop where
  kind : f.kind = .function
  name : isIdent f.name.toList = true
  params : ∀ p ∈ f.params, isIdent p.1.toList = true ∧ Wd p.2.sty.base
  mods : ∀ m ∈ f.allMods, Wd m ∧ m ≠ "returns".toList
  rets : ∀ p ∈ f.rets.params, Wd p.ty.base
  tuple : ∀ ts, f.rets = .tuple ts → ts ≠ []

theorem lex_rets_one {t : AT} (h : Wd t.sty.base) (cs : List Char) :
    lex .code [] ((Rets.one t).text ++ (";".toList ++ cs)) = retToks [resultParam t] ++ .sym ';' :: lex .code [] cs := by
  have e : retToks [resultParam t] = .word "returns".toList :: .sym '(' :: (Param.toks (resultParam t) ++ [.sym ')']) := by
    rw [retToks, if_neg (List.cons_ne_nil _ _)]
    rfl
  have hr := lexes_result (t := t) h
  have h1 : (Rets.one t).text ++ (";".toList ++ cs) = " returns ".toList ++ ("(".toList ++ (t.name.toList ++ (")".toList ++ (";".toList ++ cs)))) := by
    have h0 : (Rets.one t).text = " returns ".toList ++ "(".toList ++ t.name.toList ++ ")".toList := rfl
    rw [h0, List.append_assoc, List.append_assoc, List.append_assoc]
  rw [e, h1, lex_returns, lex_open, hr _ (by exact rfl), lex_close, lex_semi]
  rw [List.cons_append, List.cons_append, List.append_assoc, List.singleton_append]
  rfl

theorem lex_rets_tuple {ts : List AT} (h : ∀ p ∈ (Rets.tuple ts).params, Wd p.ty.base) (hn : ts ≠ []) (cs : List Char) :
    lex .code [] ((Rets.tuple ts).text ++ (";".toList ++ cs)) = retToks (Rets.tuple ts).params ++ .sym ';' :: lex .code [] cs := by
  have e : retToks (ts.map resultParam) = .word "returns".toList :: .sym '(' :: (joinToks ((ts.map resultParam).map Param.toks) ++ [.sym ')']) := by
    rw [retToks, if_neg (by simpa using hn)]
  have hj := lexes_join (l := ts) (f := fun t => t.name.toList) (g := fun t => Param.toks (resultParam t))
    (fun t ht => lexes_result (h (resultParam t) (List.mem_map_of_mem ht)))
  have h1 : (Rets.tuple ts).text ++ (";".toList ++ cs) = " returns ".toList ++ ("(".toList ++ (joinComma (ts.map (·.name.toList)) ++ (")".toList ++ (";".toList ++ cs)))) := by
    have h0 : (Rets.tuple ts).text = " returns ".toList ++ ("(".toList ++ joinComma (ts.map (·.name.toList)) ++ ")".toList) := rfl
    rw [h0, List.append_assoc, List.append_assoc, List.append_assoc]
  rw [show (Rets.tuple ts).params = ts.map resultParam from rfl, e, h1, lex_returns, lex_open, hj _ (by exact rfl), lex_close, lex_semi]
  rw [List.cons_append, List.cons_append, List.append_assoc, List.singleton_append, List.map_map]
  rfl

theorem lex_rets {r : Rets} (h : ∀ p ∈ r.params, Wd p.ty.base) (ht : ∀ ts, r = .tuple ts → ts ≠ []) (cs : List Char) :
    lex .code [] (r.text ++ (";".toList ++ cs)) = retToks r.params ++ .sym ';' :: lex .code [] cs := by
  cases r with
  | none => exact lex_semi cs
  | one t => exact lex_rets_one (h (resultParam t) (List.mem_singleton.mpr rfl)) cs
  | tuple ts => exact lex_rets_tuple h (ht ts rfl) cs

theorem lex_fun {f : HFun} (h : f.Good) (cs : List Char) : lex .code [] (f.text ++ cs) = f.toks ++ .sym ';' :: lex .code [] cs := by
  unfold HFun.text
  rw [if_pos (.inl h.kind)]
  simp only [List.append_assoc]
  have hp := lexes_join (l := f.params) (f := fun p => p.2.name.toList ++ (" ".toList ++ p.1.toList)) (g := fun p => Param.toks (fieldParam p))
    (fun p hp => by
      have := lexes_param (x := p.1) (t := p.2) (h.params p hp).2 (isIdent_wd (h.params p hp).1)
      rwa [List.append_assoc] at this)
  have hsep : Sep (f.rets.text ++ (";".toList ++ ("\n".toList ++ cs))) := by cases f.rets <;> exact rfl
  have hm : lex .code [] ((if f.allMods = [] then [] else " ".toList ++ joinSpace f.allMods) ++ (f.rets.text ++ (";".toList ++ ("\n".toList ++ cs)))) =
      f.allMods.map Tok.word ++ (retToks f.rets.params ++ .sym ';' :: lex .code [] cs) := by
    split_ifs with he
    · rw [he, List.nil_append, lex_rets h.rets h.tuple, lex_nl]; rfl
    · rw [List.append_assoc, lex_space, lexes_space (fun m hm => (h.mods m hm).1) _ hsep, lex_rets h.rets h.tuple, lex_nl]
  rw [lex_function, lex_wd (isIdent_wd h.name) (by exact rfl), lex_open, hp _ (by exact rfl), lex_close, hm]
  simp [HFun.toks, Function.comp_def]

theorem readReturns_toks {ps : List Param} (h : ∀ p ∈ ps, Reads p) : readReturns (retToks ps) = some ps := by
  unfold retToks
  split_ifs with he
  · rw [he]; rfl
  · have hj : joinToks (ps.map Param.toks) ≠ [] := joinToks_ne (by simpa using he) (fun ts hts => by
      obtain ⟨q, -, rfl⟩ := List.mem_map.mp hts
      exact q.toks_ne)
    rw [readReturns, if_pos rfl, upTo_append]
    · simp only [if_neg hj, readParams_toks h]
    · intro hc
      rcases sym_params hc with h | h | h <;> exact absurd h (by decide)

theorem reads_field {f : String × AT} (h : isIdent f.1.toList = true) : Reads (fieldParam f) := ⟨rfl, fun x hx => by cases hx; exact h⟩
theorem reads_result (t : AT) : Reads (resultParam t) := ⟨rfl, fun x hx => by cases hx⟩

theorem Rets.reads (r : Rets) : ∀ p ∈ r.params, Reads p := by
  intro p hp
  cases r with
  | none => simp [Rets.params] at hp
  | one t => simp only [Rets.params, List.mem_singleton] at hp; exact hp ▸ reads_result t
  | tuple ts =>
    simp only [Rets.params, List.mem_map] at hp
    obtain ⟨t, -, rfl⟩ := hp
    exact reads_result t

theorem readItem_fun {f : HFun} (h : f.Good) : readItem f.toks = some f.item := by
  have h1 : ∀ p ∈ f.params.map fieldParam, Reads p := by
    intro p hp
    obtain ⟨q, hq, rfl⟩ := List.mem_map.mp hp
    exact reads_field (h.params q hq).1
  have h2 : upTo ')' (joinToks ((f.params.map fieldParam).map Param.toks) ++ .sym ')' :: (f.allMods.map Tok.word ++ retToks f.rets.params)) = _ :=
    upTo_append (fun hc => by rcases sym_params hc with h | h | h <;> exact absurd h (by decide))
  have h3 : readMods (f.allMods.map Tok.word ++ retToks f.rets.params) = _ :=
    readMods_toks (ts := retToks f.rets.params) (fun m hm => (h.mods m hm).2) (by
      unfold retToks
      split_ifs
      · exact .inl rfl
      · exact .inr ⟨_, rfl⟩)
  rw [HFun.toks, readItem, if_pos rfl, h2]
  simp only [Option.bind_eq_bind, Option.bind_some, readParams_toks h1, if_true, h3, readReturns_toks f.rets.reads, h.name]
  rfl

theorem sym_fun {f : HFun} {c : Char} (h : Tok.sym c ∈ f.toks) : c ∈ ['(', ')', ',', '[', ']'] := by
  simp only [HFun.toks, List.mem_cons, List.mem_append, reduceCtorEq, false_or, Tok.sym.injEq, List.mem_map, and_false, exists_false, retToks] at h
  rcases h with rfl | h | rfl | h
  · simp
  · rcases sym_params h with rfl | rfl | rfl <;> simp
  · simp
  · split_ifs at h
    · simp at h
    · simp only [List.mem_cons, List.mem_append, reduceCtorEq, false_or, Tok.sym.injEq, List.not_mem_nil, or_false] at h
      rcases h with rfl | h | rfl
      · simp
      · rcases sym_params h with rfl | rfl | rfl <;> simp
      · simp

/-! ### Structs -/

def structItem (s : AStruct) : Item := .struct s.name.toList (s.fields.map fieldParam)

def structToks (s : AStruct) : List Tok :=
  .word "struct".toList :: .word s.name.toList :: .sym '{' :: ((s.fields.map fieldParam).flatMap fun p => p.toks ++ [.sym ';'])

structure GoodStruct (s : AStruct) : Prop where
  name : isIdent s.name.toList = true
  fields : ∀ p ∈ s.fields, isIdent p.1.toList = true ∧ Wd p.2.sty.base

theorem lex_members {fs : List (String × AT)} (h : ∀ p ∈ fs, isIdent p.1.toList = true ∧ Wd p.2.sty.base) (cs : List Char) :
    lex .code [] (fs.flatMap (fun f => "        ".toList ++ f.2.name.toList ++ " ".toList ++ f.1.toList ++ ";\n".toList) ++ cs) =
      ((fs.map fieldParam).flatMap fun p => p.toks ++ [.sym ';']) ++ lex .code [] cs := by
  induction fs with
  | nil => rfl
  | cons f fs ih =>
    have := lexes_param (x := f.1) (t := f.2) (h f (by simp)).2 (isIdent_wd (h f (by simp)).1)
    rw [List.append_assoc] at this
    simp only [List.flatMap_cons, List.map_cons, List.append_assoc]
    rw [lex_indent]
    have e := this (";\n".toList ++ (fs.flatMap (fun f => "        ".toList ++ (f.2.name.toList ++ (" ".toList ++ (f.1.toList ++ ";\n".toList)))) ++ cs)) (by exact rfl)
    simp only [List.append_assoc] at e ih
    rw [e, lex_semi_nl, ih (fun p hp => h p (by simp [hp]))]
    rfl

theorem lex_structText {s : AStruct} (h : GoodStruct s) (cs : List Char) : lex .code [] (structText s ++ cs) = structToks s ++ .sym '}' :: lex .code [] cs := by
  unfold structText
  rw [List.append_assoc, List.append_assoc, List.append_assoc, List.append_assoc, lex_struct, lex_wd (isIdent_wd h.name) (by exact rfl), lex_brace, lex_members h.fields, lex_unbrace]
  simp [structToks]

theorem readItem_struct {s : AStruct} (h : GoodStruct s) : readItem (structToks s) = some (structItem s) := by
  have h1 : ∀ p ∈ s.fields.map fieldParam, Reads p := by
    intro p hp
    obtain ⟨q, hq, rfl⟩ := List.mem_map.mp hp
    exact reads_field (h.fields q hq).1
  rw [structToks, readItem, if_neg (by decide), if_pos rfl, if_pos rfl, readMembers_toks h1]
  simp only [Option.bind_eq_bind, Option.bind_some, h.name, if_true]
  rfl

theorem sym_struct {s : AStruct} {c : Char} (h : Tok.sym c ∈ structToks s) : c ∈ ['{', ';', '[', ']'] := by
  simp only [structToks, List.mem_cons, reduceCtorEq, false_or, Tok.sym.injEq, List.mem_flatMap, List.mem_append, List.not_mem_nil, or_false] at h
  rcases h with rfl | ⟨p, -, h | rfl⟩
  · simp
  · rcases Param.sym_toks h with rfl | rfl <;> simp
  · simp

/-! ### Events and errors -/

def HEvent.params (e : HEvent) : List Param := e.fields.map fun f => ⟨f.2.1.sty, none, f.2.2, if e.positional then none else some f.1.toList⟩
def HEvent.item (e : HEvent) : Item := .event e.name.toList e.params e.anonymous
def HEvent.toks (e : HEvent) : List Tok :=
  .word "event".toList :: .word e.name.toList :: .sym '(' :: (joinToks (e.params.map Param.toks) ++ .sym ')' :: (if e.anonymous then [.word "anonymous".toList] else []))

structure HEvent.Good (e : HEvent) : Prop where
  name : isIdent e.name.toList = true
  fields : ∀ f ∈ e.fields, isIdent f.1.toList = true ∧ Wd f.2.1.sty.base

theorem lex_event' {e : HEvent} (h : e.Good) (cs : List Char) : lex .code [] (e.text ++ cs) = e.toks ++ .sym ';' :: lex .code [] cs := by
  unfold HEvent.text HEvent.fieldsText
  simp only [List.append_assoc]
  have hp := lexes_join (l := e.fields)
    (f := fun f => f.2.1.name.toList ++ ((if f.2.2 then " indexed".toList else []) ++ (if e.positional then [] else " ".toList ++ f.1.toList)))
    (g := fun f => Param.toks ⟨f.2.1.sty, none, f.2.2, if e.positional then none else some f.1.toList⟩)
    (fun f hf => by
      have := lexes_field (x := f.1) (t := f.2.1) (ix := f.2.2) (pos := e.positional) (h.fields f hf).2 (isIdent_wd (h.fields f hf).1)
      rwa [List.append_assoc] at this)
  rw [lex_event, lex_wd (isIdent_wd h.name) (by exact rfl), lex_open, hp _ (by exact rfl), lex_close]
  cases ha : e.anonymous
  · simp only [Bool.false_eq_true, if_false, List.nil_append, lex_semi_nl]
    simp [HEvent.toks, HEvent.params, Function.comp_def, ha]
  · simp only [if_true, lex_anonymous (cs := ";\n".toList ++ cs) (by exact rfl), lex_semi_nl]
    simp [HEvent.toks, HEvent.params, Function.comp_def, ha]

theorem readItem_event {e : HEvent} (h : e.Good) : readItem e.toks = some e.item := by
  have h1 : ∀ p ∈ e.params, Reads p := by
    intro p hp
    obtain ⟨q, hq, rfl⟩ := List.mem_map.mp hp
    refine ⟨rfl, fun x hx => ?_⟩
    simp only at hx
    split_ifs at hx
    cases hx
    exact (h.fields q hq).1
  have h2 : upTo ')' (joinToks (e.params.map Param.toks) ++ .sym ')' :: (if e.anonymous then [.word "anonymous".toList] else [])) = _ :=
    upTo_append (fun hc => by rcases sym_params hc with h | h | h <;> exact absurd h (by decide))
  rw [HEvent.toks, readItem, if_pos rfl, h2]
  simp only [Option.bind_eq_bind, Option.bind_some, readParams_toks h1]
  rw [if_neg (by decide), if_pos trivial]
  unfold HEvent.item
  cases e.anonymous
  · simp only [Bool.false_eq_true, if_false, h.name, if_true]
  · simp only [if_true, h.name, true_and]

theorem sym_event {e : HEvent} {c : Char} (h : Tok.sym c ∈ e.toks) : c ∈ ['(', ')', ',', '[', ']'] := by
  simp only [HEvent.toks, List.mem_cons, List.mem_append, reduceCtorEq, false_or, Tok.sym.injEq] at h
  rcases h with rfl | h | rfl | h
  · simp
  · rcases sym_params h with rfl | rfl | rfl <;> simp
  · simp
  · split_ifs at h <;> simp at h

def HError.params (e : HError) : List Param := e.fields.map fun f => ⟨f.2.sty, none, false, if e.positional then none else some f.1.toList⟩
def HError.item (e : HError) : Item := .error e.name.toList e.params
def HError.toks (e : HError) : List Tok :=
  .word "error".toList :: .word e.name.toList :: .sym '(' :: (joinToks (e.params.map Param.toks) ++ [.sym ')'])

structure HError.Good (e : HError) : Prop where
  name : isIdent e.name.toList = true
  fields : ∀ f ∈ e.fields, isIdent f.1.toList = true ∧ Wd f.2.sty.base

theorem lex_error' {e : HError} (h : e.Good) (cs : List Char) : lex .code [] (e.text ++ cs) = e.toks ++ .sym ';' :: lex .code [] cs := by
  unfold HError.text
  simp only [List.append_assoc]
  have hp := lexes_join (l := e.fields)
    (f := fun f => f.2.name.toList ++ (if e.positional then [] else " ".toList ++ f.1.toList))
    (g := fun f => Param.toks ⟨f.2.sty, none, false, if e.positional then none else some f.1.toList⟩)
    (fun f hf => by
      have := lexes_field (x := f.1) (t := f.2) (ix := false) (pos := e.positional) (h.fields f hf).2 (isIdent_wd (h.fields f hf).1)
      simpa only [Bool.false_eq_true, if_false, List.append_nil] using this)
  rw [lex_error, lex_wd (isIdent_wd h.name) (by exact rfl), lex_open, hp _ (by exact rfl), lex_end_error]
  simp [HError.toks, HError.params, Function.comp_def]

theorem readItem_error {e : HError} (h : e.Good) : readItem e.toks = some e.item := by
  have h1 : ∀ p ∈ e.params, Reads p := by
    intro p hp
    obtain ⟨q, hq, rfl⟩ := List.mem_map.mp hp
    refine ⟨rfl, fun x hx => ?_⟩
    simp only at hx
    split_ifs at hx
    cases hx
    exact (h.fields q hq).1
  have h2 : upTo ')' (joinToks (e.params.map Param.toks) ++ .sym ')' :: []) = _ :=
    upTo_append (fun hc => by rcases sym_params hc with h | h | h <;> exact absurd h (by decide))
  rw [HError.toks, readItem, if_pos rfl, h2]
  simp only [Option.bind_eq_bind, Option.bind_some, readParams_toks h1]
  rw [if_neg (by decide), if_neg (by decide), if_pos ⟨trivial, trivial⟩]
  simp only [h.name, if_true]
  rfl

theorem sym_error {e : HError} {c : Char} (h : Tok.sym c ∈ e.toks) : c ∈ ['(', ')', ',', '[', ']'] := by
  simp only [HError.toks, List.mem_cons, List.mem_append, reduceCtorEq, false_or, Tok.sym.injEq, List.not_mem_nil, or_false] at h
  rcases h with rfl | h | rfl
  · simp
  · rcases sym_params h with rfl | rfl | rfl <;> simp
  · simp

/-! ## The interface -/

/-- Tokens of a declaration, with its end. -/
structure Piece where
  toks : List Tok
  item : Item
  brace : Bool

def Piece.last (p : Piece) : Char := if p.brace then '}' else ';'

structure Piece.Good (p : Piece) : Prop where
  read : readItem p.toks = some p.item
  last : Tok.sym p.last ∉ p.toks
  braced : ∀ ts, braced (p.toks ++ ts) = p.brace
  word : ∃ w ts, p.toks = .word w :: ts

theorem readItems_pieces : ∀ {ps : List Piece} {fuel : Nat}, (∀ p ∈ ps, p.Good) → ps.length < fuel →
    readItems fuel (ps.flatMap (fun p => p.toks ++ [.sym p.last]) ++ [.sym '}']) = some (ps.map (·.item))
  | _, 0, _, h => absurd h (Nat.not_lt_zero _)
  | [], n + 1, _, _ => by rw [List.flatMap_nil, List.nil_append, readItems, if_pos rfl]; rfl
  | p :: ps, n + 1, h, hf => by
    have hp := h p (by simp)
    obtain ⟨w, ts, hw⟩ := hp.word
    rw [List.flatMap_cons, List.append_assoc, List.append_assoc, readItems, if_neg (by rw [hw]; simp), hp.braced]
    rw [show (if p.brace then '}' else ';') = p.last from rfl, List.singleton_append, upTo_append hp.last]
    simp only [Option.bind_eq_bind, Option.bind_some, hp.read]
    rw [readItems_pieces (fun q hq => h q (by simp [hq])) (by simpa using hf)]
    rfl


def funPiece (f : HFun) : Piece := ⟨f.toks, f.item, false⟩
def structPiece (s : AStruct) : Piece := ⟨structToks s, structItem s, true⟩
def eventPiece (e : HEvent) : Piece := ⟨e.toks, e.item, false⟩
def errorPiece (e : HError) : Piece := ⟨e.toks, e.item, false⟩

theorem funPiece_good {f : HFun} (h : f.Good) : (funPiece f).Good :=
  ⟨readItem_fun h, fun hc => absurd (sym_fun hc) (by rw [show (funPiece f).last = ';' from rfl]; decide), fun _ => by exact rfl, ⟨_, _, rfl⟩⟩
theorem structPiece_good {s : AStruct} (h : GoodStruct s) : (structPiece s).Good :=
  ⟨readItem_struct h, fun hc => absurd (sym_struct hc) (by rw [show (structPiece s).last = '}' from rfl]; decide), fun _ => by exact rfl, ⟨_, _, rfl⟩⟩
theorem eventPiece_good {e : HEvent} (h : e.Good) : (eventPiece e).Good :=
  ⟨readItem_event h, fun hc => absurd (sym_event hc) (by rw [show (eventPiece e).last = ';' from rfl]; decide), fun _ => by exact rfl, ⟨_, _, rfl⟩⟩
theorem errorPiece_good {e : HError} (h : e.Good) : (errorPiece e).Good :=
  ⟨readItem_error h, fun hc => absurd (sym_error hc) (by rw [show (errorPiece e).last = ';' from rfl]; decide), fun _ => by exact rfl, ⟨_, _, rfl⟩⟩

theorem lex_pieces {α : Type} {l : List α} {f : α → Text} {g : α → Piece}
    (h : ∀ a ∈ l, ∀ cs, lex .code [] (f a ++ cs) = (g a).toks ++ .sym (g a).last :: lex .code [] cs) (cs : List Char) :
    lex .code [] (l.flatMap f ++ cs) = (l.map g).flatMap (fun p => p.toks ++ [.sym p.last]) ++ lex .code [] cs := by
  induction l with
  | nil => rfl
  | cons a l ih =>
    rw [List.flatMap_cons, List.append_assoc, h a (by simp), ih (fun b hb => h b (by simp [hb]))]
    simp

/-- What is needed to read the whole interface back. -/
structure HAbi.Good (A : HAbi) : Prop where
  name : isIdent (genUpperCamel A.name).toList = true
  functions : ∀ f ∈ A.functions, f.listed = true → f.Good
  structs : ∀ s ∈ A.structs, GoodStruct s
  enums : A.enums = []
  events : ∀ e ∈ A.events, e.Good
  errors : ∀ e ∈ A.errors, e.Good

def sortedEvents (A : HAbi) : List HEvent :=
  A.events.mergeSort (fun a b => decide (a.name < b.name ∨ (a.name = b.name ∧ String.ofList a.fieldsText ≤ String.ofList b.fieldsText)))

def HAbi.pieces (A : HAbi) : List Piece :=
  (sortedEvents A).map eventPiece ++ (sortBy HError.name A.errors).map errorPiece ++ (sortBy AStruct.name A.structs).map structPiece ++
    ((sortBy HFun.name A.functions).filter HFun.listed).map funPiece

theorem mem_sortBy {α : Type} {key : α → String} {l : List α} {a : α} : a ∈ sortBy key l ↔ a ∈ l := List.mem_mergeSort

theorem lex_optNl (b : Prop) [Decidable b] (cs : List Char) : lex .code [] ((if b then [] else "\n".toList) ++ cs) = lex .code [] cs := by
  split_ifs
  · rfl
  · exact lex_nl _

theorem pieces_good {A : HAbi} (h : A.Good) : ∀ p ∈ A.pieces, p.Good := by
  intro p hp
  simp only [HAbi.pieces, List.mem_append, List.mem_map, List.mem_filter, mem_sortBy, sortedEvents, List.mem_mergeSort] at hp
  rcases hp with ((⟨e, he, rfl⟩ | ⟨e, he, rfl⟩) | ⟨s, hs, rfl⟩) | ⟨f, ⟨hf, hl⟩, rfl⟩
  · exact eventPiece_good (h.events e he)
  · exact errorPiece_good (h.errors e he)
  · exact structPiece_good (h.structs s hs)
  · exact funPiece_good (h.functions f hf hl)

theorem tokens_interface {A : HAbi} (h : A.Good) : tokens (interfaceText A) =
    headerToks ++ .sym ';' :: .word "interface".toList :: .word (genUpperCamel A.name).toList :: .sym '{' ::
      (A.pieces.flatMap (fun p => p.toks ++ [.sym p.last]) ++ [.sym '}']) := by
  have h1 := lex_pieces (l := sortedEvents A) (f := HEvent.text) (g := eventPiece) (fun e he cs => lex_event' (h.events e (List.mem_mergeSort.mp he)) cs)
  have h2 := lex_pieces (l := sortBy HError.name A.errors) (f := HError.text) (g := errorPiece) (fun e he cs => lex_error' (h.errors e (mem_sortBy.mp he)) cs)
  have h3 := lex_pieces (l := sortBy AStruct.name A.structs) (f := structText) (g := structPiece) (fun e he cs => lex_structText (h.structs e (mem_sortBy.mp he)) cs)
  have h4 := lex_pieces (l := (sortBy HFun.name A.functions).filter HFun.listed) (f := HFun.text) (g := funPiece) (fun e he cs => by
    obtain ⟨a, b⟩ := List.mem_filter.mp he
    exact lex_fun (h.functions e (mem_sortBy.mp a) b) cs)
  unfold tokens interfaceText eventsText errorsText structsText functionsText enumsText
  rw [h.enums]
  simp only [List.append_assoc]
  rw [lex_header, lex_interface, lex_wd (isIdent_wd h.name) (by exact rfl), lex_brace2]
  have h1' := h1
  unfold sortedEvents at h1'
  rw [h1', lex_optNl, h2, lex_optNl, h3]
  rw [show (sortBy HEnum.name ([] : List HEnum)).flatMap enumText = [] from by simp [sortBy], List.nil_append, h4, lex_end]
  simp only [HAbi.pieces, List.flatMap_append, List.append_assoc]
  rw [sortedEvents]

theorem readInterface_text {A : HAbi} (h : A.Good) : readInterface (interfaceText A) = some ⟨(genUpperCamel A.name).toList, A.pieces.map (·.item)⟩ := by
  have hlen : ∀ ps : List Piece, ps.length < (ps.flatMap (fun p => p.toks ++ [Tok.sym p.last]) ++ [Tok.sym '}']).length + 1 := by
    intro ps
    induction ps with
    | nil => simp
    | cons p ps ih => simp only [List.flatMap_cons, List.length_append, List.length_cons, List.length_nil] at ih ⊢; omega
  rw [readInterface, tokens_interface h, upTo_append (a := headerToks) (by decide)]
  simp only [headerToks]
  rw [if_pos ⟨trivial, trivial, h.name⟩, readItems_pieces (pieces_good h) (hlen _)]
  rfl

end Export
