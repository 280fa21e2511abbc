import Verif.Nodes.Yaml

/-! C90, C91: the nodes that work on strings (`nodes/format.py`) and those that read from ROS (`ros_nodes/param.py`,
`ros_nodes/time.py`). -/

set_option autoImplicit false

namespace Verif.Nodes

open Verif.Data
open Verif.BT (BTState Res)

/-! ### The model: format strings -/

/-- What Python does with values when they become text. -/
structure Texts where
  /-- `str(v)` for values other than strings, integers and booleans. -/
  str : Val → List Char
  upper : List Char → List Char
  lower : List Char → List Char
  capitalize : List Char → List Char
  /-- `format(v, spec)` for a specification that is not empty; `none`: an exception. -/
  spec : Val → List Char → Option (List Char)
  /-- What a field name with a dot or a bracket refers to; `none`: an exception. -/
  access : List (String × Val) → List Char → Option Val

/-- Python's `str(v)`. -/
def Texts.text (T : Texts) : Val → List Char
  | .str s => s.toList
  | .int i => (toString i).toList
  | .bool b => (if b then "True" else "False").toList
  | v => T.str v

/-- The name of a field ends at the first of these characters. -/
def endsName (c : Char) : Bool := c == '}' || c == ':' || c == '!'

/-- The field name: what is before the first `}`, `:` or `!` that is not in brackets, with that character and the rest. This is
Python's parser of format strings (`string.Formatter.parse`, used by format.py 141), as are the next functions. -/
def scanName : Bool → List Char → Option (List Char × Char × List Char)
  | _, [] => none
  | true, c :: s => (scanName (c != ']') s).map fun r => (c :: r.1, r.2)
  | false, c :: s =>
    if endsName c then some ([], c, s)
    else if c == '{' then none
    else (scanName (c == '[') s).map fun r => (c :: r.1, r.2)

/-- The specification: what is before the closing brace. -/
def scanSpec : Nat → List Char → Option (List Char × List Char)
  | _, [] => none
  | n, c :: s =>
    if c == '}' then
      match n with
      | 0 => some ([], s)
      | n + 1 => (scanSpec n s).map fun r => (c :: r.1, r.2)
    else (scanSpec (if c == '{' then n + 1 else n) s).map fun r => (c :: r.1, r.2)

/-- A replacement field. -/
structure Slot where
  name : List Char
  conv : Option Char
  spec : List Char

/-- The field after an opening brace and what follows it. -/
def scanField (s : List Char) : Option (Slot × List Char) :=
  match scanName false s with
  | none => none
  | some (name, c, r) =>
    if c == '}' then some (⟨name, none, []⟩, r)
    else if c == ':' then (scanSpec 0 r).map fun q => (⟨name, none, q.1⟩, q.2)
    else
      match r with
      | v :: c' :: r =>
        if c' == '}' then some (⟨name, some v, []⟩, r)
        else if c' == ':' then (scanSpec 0 r).map fun q => (⟨name, some v, q.1⟩, q.2)
        else none
      | _ => none

/-- `Formatter.get_field` with no positional arguments: an empty name and a number are positions, that is an IndexError. Digits
other than 0-9 are left out. -/
def getField (T : Texts) (d : List (String × Val)) (name : List Char) : Option Val :=
  if name.all Char.isDigit then none
  else if name.contains '.' || name.contains '[' then T.access d name
  else d.lookup (String.ofList name)

/-- format.py 48-72: `convert_field`. What the conversions of Python yield is not returned (69). -/
def convert (T : Texts) (v : Val) : Option Char → Option Val
  | none => some v
  | some c =>
    if c == 'u' then some (.str (String.ofList (T.upper (T.text v))))
    else if c == 'l' then some (.str (String.ofList (T.lower (T.text v))))
    else if c == 'c' then some (.str (String.ofList (T.capitalize (T.text v))))
    else if c == 's' || c == 'r' || c == 'a' then some v
    else none

/-- The text of a field. -/
def substitute (T : Texts) (d : List (String × Val)) (f : Slot) : Option (List Char) :=
  ((getField T d f.name).bind fun v => convert T v f.conv).bind fun v => if f.spec.isEmpty then some (T.text v) else T.spec v f.spec

/-- `myformatter.format(s, **d)`; `none`: an exception. The number bounds the steps, the length of `s` is enough. -/
def fmt (T : Texts) (d : List (String × Val)) : Nat → List Char → Option (List Char)
  | _, [] => some []
  | 0, _ :: _ => none
  | n + 1, c :: s =>
    if c == '{' || c == '}' then
      if s.head? = some c then (fmt T d n s.tail).map (c :: ·)
      else if c == '}' then none
      else
        match scanField s with
        | none => none
        | some (f, r) => (substitute T d f).bind fun t => (fmt T d n r).map (t ++ ·)
    else (fmt T d n s).map (c :: ·)

/-- `except Exception: return Ok(FAILED)` (format.py 148-150, 201-203). -/
def caught (o : Out) : Out :=
  match o.res with
  | none => ⟨o.data, some (.ok .failed)⟩
  | some _ => o

/-- format.py 137-150: `_do_tick` of FormatString. -/
def formatString (T : Texts) (d : NodeData) : Out :=
  caught <| need d (valueAs asStr d "format_string") fun s => need d (valueAs asDict d "dict") fun l =>
    match fmt T l s.toList.length s.toList with
    | none => ⟨d, none⟩
    | some t => put d "formatted_string" (.str (String.ofList t)) .succeeded

/-- format.py 190-203: `_do_tick` of FormatStringList. `isinstance(value, list[str])` (data_types.py 292) is a TypeError for every
value, before anything is formatted. -/
def formatStringList (d : NodeData) : Out :=
  caught <| need d (value d "format_strings") fun _ => ⟨d, none⟩

/-- Python's `os.path.splitext` on a POSIX system, from the end of the path: what is after the last dot is the extension if
there is no slash in it and something other than dots between the slash before and the dot. -/
def splitext (p : List Char) : List Char × List Char :=
  let x := p.reverse.takeWhile (· != '.')
  match p.reverse.dropWhile (· != '.') with
  | [] => (p, [])
  | dot :: f => if !x.contains '/' && (f.takeWhile (· != '/')).any (· != '.') then (f.reverse, dot :: x.reverse) else (p, [])

/-- format.py 228-238: `_do_tick` of GetFileExtension. -/
def getFileExtension (d : NodeData) : Out :=
  need d (valueAs asStr d "path") fun p =>
    let r := splitext p.toList
    putAll d [("filename", .str (String.ofList r.1)), ("extension", .str (String.ofList r.2))] .succeeded

/-! ### The model: reading from ROS -/

/-- param.py 67-90: `_do_tick` of RosParam. `params` are the parameters of the ROS node that have been declared, with their values
(`none` is `None`: declared without a value). -/
def rosParam (params : List (String × Option Val)) (d : NodeData) : Out :=
  need d (valueAs asStr d "param_name") fun k =>
    match params.lookup k with
    | none => ⟨d, some (.ok .failed)⟩
    | some none => need d (value d "default_value") fun v => put d "param" v .succeeded
    | some (some v) => put d "param" v .succeeded

/-- time.py 59-63: `_do_tick` of GetTimeNow; `now` is the message with the time of the clock. -/
def getTimeNow (now : Val) (d : NodeData) : Out := put d "current_time" now .succeeded

/-! ### What a user writes in a format string -/

/-- The conversions: those format.py 61-66 adds and those Python has. -/
inductive Conv | upper | lower | capital | str | repr | ascii
  deriving DecidableEq, Repr

/-- The letter for a conversion. -/
def Conv.letter : Conv → Char
  | .upper => 'u'
  | .lower => 'l'
  | .capital => 'c'
  | .str => 's'
  | .repr => 'r'
  | .ascii => 'a'

/-- A part of a template: text, or the value of a key. -/
inductive Piece
  | text (t : List Char)
  | key (k : String) (conv : Option Conv)

/-- A key that can be used in a template. -/
structure Usable (k : String) : Prop where
  plain : ∀ c ∈ k.toList, c ≠ '{' ∧ c ≠ '}' ∧ c ≠ '[' ∧ c ≠ '.' ∧ c ≠ ':' ∧ c ≠ '!'
  name : ∃ c ∈ k.toList, c.isDigit = false

/-- A part as it is written: braces in a text are doubled. -/
inductive Written : Piece → List Char → Prop
  | nil : Written (.text []) []
  | char (c : Char) (t s : List Char) (h1 : c ≠ '{') (h2 : c ≠ '}') (h : Written (.text t) s) : Written (.text (c :: t)) (c :: s)
  | opening (t s : List Char) (h : Written (.text t) s) : Written (.text ('{' :: t)) ('{' :: '{' :: s)
  | closing (t s : List Char) (h : Written (.text t) s) : Written (.text ('}' :: t)) ('}' :: '}' :: s)
  | key (k : String) (h : Usable k) : Written (.key k none) ('{' :: k.toList ++ ['}'])
  | conv (k : String) (v : Conv) (h : Usable k) : Written (.key k (some v)) ('{' :: k.toList ++ ['!', v.letter, '}'])

/-- A template as it is written. -/
inductive Template : List Piece → List Char → Prop
  | nil : Template [] []
  | cons (p : Piece) (ps : List Piece) (s t : List Char) (h : Written p s) (hs : Template ps t) : Template (p :: ps) (s ++ t)

/-- What a part stands for. The conversions `!r` and `!a` are left out. -/
inductive Stands (T : Texts) (d : List (String × Val)) : Piece → List Char → Prop
  | text (t : List Char) : Stands T d (.text t) t
  | plain (k : String) (v : Val) (h : d.lookup k = some v) : Stands T d (.key k none) (T.text v)
  | str (k : String) (v : Val) (h : d.lookup k = some v) : Stands T d (.key k (some .str)) (T.text v)
  | upper (k : String) (v : Val) (h : d.lookup k = some v) : Stands T d (.key k (some .upper)) (T.upper (T.text v))
  | lower (k : String) (v : Val) (h : d.lookup k = some v) : Stands T d (.key k (some .lower)) (T.lower (T.text v))
  | capital (k : String) (v : Val) (h : d.lookup k = some v) : Stands T d (.key k (some .capital)) (T.capitalize (T.text v))

/-- What a template stands for. -/
inductive Formatted (T : Texts) (d : List (String × Val)) : List Piece → List Char → Prop
  | nil : Formatted T d [] []
  | cons (p : Piece) (ps : List Piece) (s t : List Char) (h : Stands T d p s) (hs : Formatted T d ps t) : Formatted T d (p :: ps) (s ++ t)

/-! ### Formatting -/

theorem scanName_key (c : Char) (hc : endsName c = true) (r : List Char) (k : List Char)
    (hk : ∀ c ∈ k, c ≠ '{' ∧ c ≠ '}' ∧ c ≠ '[' ∧ c ≠ '.' ∧ c ≠ ':' ∧ c ≠ '!') : scanName false (k ++ c :: r) = some (k, c, r) := by
  induction k with
  | nil => simp [scanName, hc]
  | cons a k ih =>
    have ha := hk a (List.mem_cons_self ..)
    have he : endsName a = false := by simp [endsName, ha]
    have h1 : (a == '{') = false := by simp [ha]
    have h2 : (a == '[') = false := by simp [ha]
    rw [List.cons_append, scanName, he, h1, h2, ih fun c h => hk c (List.mem_cons_of_mem _ h)]
    rfl

theorem getField_key (T : Texts) (d : List (String × Val)) (k : String) (h : Usable k) : getField T d k.toList = d.lookup k := by
  obtain ⟨c, hc, hd⟩ := h.name
  have h1 : k.toList.all Char.isDigit = false := by
    rw [List.all_eq_false]
    exact ⟨c, hc, by simp [hd]⟩
  have h2 : k.toList.contains '.' = false := by
    simp only [List.contains_eq_mem, decide_eq_false_iff_not]
    exact fun h' => (h.plain _ h').2.2.2.1 rfl
  have h3 : k.toList.contains '[' = false := by
    simp only [List.contains_eq_mem, decide_eq_false_iff_not]
    exact fun h' => (h.plain _ h').2.2.1 rfl
  rw [getField, h1, h2, h3]
  simp

theorem head_key (k : String) (h : Usable k) (r : List Char) : ∃ c s, k.toList ++ r = c :: s ∧ c ≠ '{' := by
  obtain ⟨c, hc, -⟩ := h.name
  cases hk : k.toList with
  | nil => rw [hk] at hc; cases hc
  | cons a l => exact ⟨a, l ++ r, rfl, (h.plain a (by rw [hk]; exact List.mem_cons_self ..)).1⟩

/-- A field in a format string. -/
theorem fmt_field (T : Texts) (d : List (String × Val)) (n : Nat) (s r : List Char) (f : Slot) (hs : scanField s = some (f, r))
    (hh : s.head? ≠ some '{') : fmt T d (n + 1) ('{' :: s) = (substitute T d f).bind fun t => (fmt T d n r).map (t ++ ·) := by
  rw [fmt, if_pos (by decide), if_neg hh, if_neg (by decide), hs]

theorem scanField_key (k : String) (h : Usable k) (r : List Char) : scanField (k.toList ++ '}' :: r) = some (⟨k.toList, none, []⟩, r) := by
  rw [scanField, scanName_key '}' (by decide) r _ h.plain]
  rfl

theorem scanField_conv (k : String) (h : Usable k) (v : Char) (r : List Char) :
    scanField (k.toList ++ '!' :: v :: '}' :: r) = some (⟨k.toList, some v, []⟩, r) := by
  rw [scanField, scanName_key '!' (by decide) _ _ h.plain]
  rfl

/-- What the field of a key becomes. -/
def keyText (T : Texts) (d : List (String × Val)) (k : String) (c : Option Char) : Option (List Char) :=
  ((d.lookup k).bind fun v => convert T v c).map T.text

theorem substitute_key (T : Texts) (d : List (String × Val)) (k : String) (h : Usable k) (c : Option Char) :
    substitute T d ⟨k.toList, c, []⟩ = keyText T d k c := by
  rw [substitute, getField_key T d k h, keyText]
  simp only [List.isEmpty_nil, if_true]
  cases (d.lookup k).bind fun v => convert T v c <;> rfl

/-- What a part becomes; `none`: an exception. -/
def pieceText (T : Texts) (d : List (String × Val)) : Piece → Option (List Char)
  | .text t => some t
  | .key k c => keyText T d k (c.map Conv.letter)

theorem fmt_piece (T : Texts) (d : List (String × Val)) (p : Piece) (s : List Char) (h : Written p s) :
    ∀ (r : List Char) (n : Nat), (s ++ r).length ≤ n →
      ∃ m, r.length ≤ m ∧ fmt T d n (s ++ r) = (pieceText T d p).bind fun t => (fmt T d m r).map (t ++ ·) := by
  have idm : ∀ o : Option (List Char), o.map (fun t => [] ++ t) = o := fun o => by cases o <;> rfl
  have two : ∀ (c : Char) (t : List Char) (o : Option (List Char)), (o.map (t ++ ·)).map (c :: ·) = o.map (c :: t ++ ·) := fun c t o => by
    cases o <;> rfl
  induction h with
  | nil => intro r n hn; exact ⟨n, hn, (idm _).symm⟩
  | char c t s h1 h2 _ ih =>
    intro r n hn
    cases n with
    | zero => simp at hn
    | succ n =>
      obtain ⟨m, hm, e⟩ := ih r n (by simp at hn ⊢; omega)
      refine ⟨m, hm, ?_⟩
      rw [List.cons_append, fmt, if_neg (by simp [h1, h2]), e]
      exact two c t _
  | opening t s _ ih =>
    intro r n hn
    cases n with
    | zero => simp at hn
    | succ n =>
      obtain ⟨m, hm, e⟩ := ih r n (by simp at hn ⊢; omega)
      refine ⟨m, hm, ?_⟩
      rw [List.cons_append, List.cons_append, fmt, if_pos (by decide), if_pos List.head?_cons]
      show (fmt T d n (s ++ r)).map _ = _
      rw [e]
      exact two _ t _
  | closing t s _ ih =>
    intro r n hn
    cases n with
    | zero => simp at hn
    | succ n =>
      obtain ⟨m, hm, e⟩ := ih r n (by simp at hn ⊢; omega)
      refine ⟨m, hm, ?_⟩
      rw [List.cons_append, List.cons_append, fmt, if_pos (by decide), if_pos List.head?_cons]
      show (fmt T d n (s ++ r)).map _ = _
      rw [e]
      exact two _ t _
  | key k h =>
    intro r n hn
    cases n with
    | zero => simp at hn
    | succ n =>
      refine ⟨n, by simp at hn; omega, ?_⟩
      have e : ('{' :: k.toList ++ ['}']) ++ r = '{' :: (k.toList ++ '}' :: r) := by simp
      obtain ⟨c, q, hq, hc⟩ := head_key k h ('}' :: r)
      rw [e, fmt_field T d n _ r _ (scanField_key k h r) (by rw [hq]; simp [hc]), substitute_key T d k h]
      rfl
  | conv k v h =>
    intro r n hn
    cases n with
    | zero => simp at hn
    | succ n =>
      refine ⟨n, by simp at hn; omega, ?_⟩
      have e : ('{' :: k.toList ++ ['!', v.letter, '}']) ++ r = '{' :: (k.toList ++ '!' :: v.letter :: '}' :: r) := by simp
      obtain ⟨c, q, hq, hc⟩ := head_key k h ('!' :: v.letter :: '}' :: r)
      rw [e, fmt_field T d n _ r _ (scanField_conv k h _ r) (by rw [hq]; simp [hc]), substitute_key T d k h]
      rfl

theorem pieceText_stands (T : Texts) (d : List (String × Val)) (p : Piece) (s : List Char) (h : Stands T d p s) : pieceText T d p = some s := by
  cases h with
  | text t => rfl
  | plain k v h => simp [pieceText, keyText, h, convert]
  | str k v h => simp [pieceText, keyText, h, convert, Conv.letter]
  | upper k v h => simp [pieceText, keyText, h, convert, Conv.letter, Texts.text]
  | lower k v h => simp [pieceText, keyText, h, convert, Conv.letter, Texts.text]
  | capital k v h => simp [pieceText, keyText, h, convert, Conv.letter, Texts.text]

theorem fmt_template (T : Texts) (d : List (String × Val)) (ps : List Piece) (s t : List Char) (h : Template ps s) (hf : Formatted T d ps t) :
    ∀ n, s.length ≤ n → fmt T d n s = some t := by
  induction h generalizing t with
  | nil =>
    cases hf
    intro n _
    cases n <;> rfl
  | cons p ps s r hw _ ih =>
    cases hf with
    | cons _ _ a b ha hb =>
      intro n hn
      obtain ⟨m, hm, e⟩ := fmt_piece T d p s hw r n hn
      rw [e, pieceText_stands T d p a ha, ih b hb m hm]
      rfl

theorem fmt_none (T : Texts) (d : List (String × Val)) (ps : List Piece) (s : List Char) (h : Template ps s)
    (hp : ∃ k c, Piece.key k c ∈ ps ∧ d.lookup k = none) : ∀ n, s.length ≤ n → fmt T d n s = none := by
  obtain ⟨k, c, hp, hk⟩ := hp
  induction h with
  | nil => cases hp
  | cons p ps s r hw _ ih =>
    intro n hn
    obtain ⟨m, hm, e⟩ := fmt_piece T d p s hw r n hn
    rw [e]
    rcases List.mem_cons.mp hp with rfl | hp
    · simp [pieceText, keyText, hk]
    · rw [ih hp m hm]
      cases pieceText T d p <;> rfl

/-- C90: FormatString puts out the text of the template, with the values of the dictionary in the places of their keys. -/
theorem c90_format_partial (T : Texts) (d : NodeData) (s : String) (l : List (String × Val)) (ps : List Piece) (t : List Char) (hr : Ready d)
    (hs : value d "format_string" = some (.str s)) (hl : value d "dict" = some (.dict l)) (hp : Template ps s.toList)
    (hf : Formatted T l ps t) (ht : Takes d "formatted_string" (.str (String.ofList t))) :
    Yields (formatString T) d "formatted_string" (.str (String.ofList t)) := by
  apply yields_of_put _ _ _ _ hr ht
  have hput := (put_spec (begun d) "formatted_string" (.str (String.ofList t)) .succeeded (takes_begun d _ _ ht)).1
  simp only [formatString, valueAs, value_begun, hs, hl, Option.bind_some, asStr, asDict, need, fmt_template T l ps _ t hp hf _ (Nat.le_refl _)]
  rw [caught, hput]

/-- C90: if a key of the template is not in the dictionary, the node fails and puts out nothing. -/
theorem c90_missing (T : Texts) (d : NodeData) (s : String) (l : List (String × Val)) (ps : List Piece) (hr : Ready d)
    (hs : value d "format_string" = some (.str s)) (hl : value d "dict" = some (.dict l)) (hp : Template ps s.toList)
    (hk : ∃ k c, Piece.key k c ∈ ps ∧ l.lookup k = none) : Judges (formatString T) d .failed := by
  apply judges_of _ _ _ hr
  simp only [formatString, valueAs, value_begun, hs, hl, Option.bind_some, asStr, asDict, need, fmt_none T l ps _ hp hk _ (Nat.le_refl _)]
  rfl

theorem judges_bad (T : Texts) (d : NodeData) (s : String) (l : List (String × Val)) (ps : List Piece) (a r : List Char)
    (hr : Ready d) (hs : value d "format_string" = some (.str s)) (hl : value d "dict" = some (.dict l)) (hp : Template ps a)
    (he : s.toList = a ++ r) (hfield : ∀ n, fmt T l n r = none) : Judges (formatString T) d .failed := by
  have hfmt : ∀ n, s.toList.length ≤ n → fmt T l n s.toList = none := by
    rw [he]
    clear he hs
    induction hp with
    | nil => intro n _; exact hfield n
    | cons p ps s t hw _ ih =>
      intro n hn
      rw [List.append_assoc] at hn ⊢
      obtain ⟨m, hm, e⟩ := fmt_piece T l p s hw _ n hn
      rw [e, ih m hm]
      cases pieceText T l p <;> rfl
  apply judges_of _ _ _ hr
  simp only [formatString, valueAs, value_begun, hs, hl, Option.bind_some, asStr, asDict, need, hfmt _ (Nat.le_refl _)]
  rfl

/-- C90: a conversion that does not exist makes the node fail. -/
theorem c90_unknown (T : Texts) (d : NodeData) (s : String) (l : List (String × Val)) (ps : List Piece) (k : String) (c : Char) (a b : List Char)
    (hr : Ready d) (hs : value d "format_string" = some (.str s)) (hl : value d "dict" = some (.dict l)) (hp : Template ps a) (hk : Usable k)
    (he : s.toList = a ++ ('{' :: k.toList ++ ['!', c, '}']) ++ b) (hc : ∀ v : Conv, c ≠ v.letter) : Judges (formatString T) d .failed := by
  have hconv : ∀ v, convert T v (some c) = none := by
    intro v
    have h1 := hc .upper
    have h2 := hc .lower
    have h3 := hc .capital
    have h4 := hc .str
    have h5 := hc .repr
    have h6 := hc .ascii
    simp only [Conv.letter] at h1 h2 h3 h4 h5 h6
    simp [convert, h1, h2, h3, h4, h5, h6]
  have hfield : ∀ n, fmt T l n (('{' :: k.toList ++ ['!', c, '}']) ++ b) = none := by
    intro n
    cases n with
    | zero => rfl
    | succ n =>
      have e : ('{' :: k.toList ++ ['!', c, '}']) ++ b = '{' :: (k.toList ++ '!' :: c :: '}' :: b) := by simp
      obtain ⟨x, q, hq, hx⟩ := head_key k hk ('!' :: c :: '}' :: b)
      rw [e, fmt_field T l n _ b _ (scanField_conv k hk c b) (by rw [hq]; simp [hx]), substitute_key T l k hk, keyText]
      cases l.lookup k with
      | none => rfl
      | some v => simp [hconv]
  exact judges_bad T d s l ps a _ hr hs hl hp (by rw [he, List.append_assoc]) hfield

/-- C90: braces that are not closed or not opened make the node fail. -/
theorem c90_braces (T : Texts) (d : NodeData) (s : String) (l : List (String × Val)) (ps : List Piece) (a b : List Char)
    (hr : Ready d) (hs : value d "format_string" = some (.str s)) (hl : value d "dict" = some (.dict l)) (hp : Template ps a)
    (he : (∃ k, Usable k ∧ (s.toList = a ++ '{' :: k.toList ∨ s.toList = a ++ '{' :: k.toList ++ '{' :: b)) ∨
      s.toList = a ++ '}' :: b ∧ b.head? ≠ some '}') : Judges (formatString T) d .failed := by
  have scan : ∀ (k r : List Char) (h : ∀ c ∈ k, c ≠ '{' ∧ c ≠ '}' ∧ c ≠ '[' ∧ c ≠ '.' ∧ c ≠ ':' ∧ c ≠ '!'), (r = [] ∨ r = '{' :: b) →
      scanName false (k ++ r) = none := by
    intro k r h hr
    induction k with
    | nil => rcases hr with rfl | rfl <;> rfl
    | cons x k ih =>
      have hx := h x (List.mem_cons_self ..)
      have e1 : endsName x = false := by simp [endsName, hx]
      have e2 : (x == '[') = false := by simp [hx]
      rw [List.cons_append, scanName, e1, e2, ih fun c h' => h c (List.mem_cons_of_mem _ h')]
      simp
  have bad : ∀ (k : String) (r : List Char) (n : Nat), Usable k → (r = [] ∨ r = '{' :: b) → fmt T l n ('{' :: (k.toList ++ r)) = none := by
    intro k r n hk hr
    cases n with
    | zero => rfl
    | succ n =>
      obtain ⟨x, q, hq, hx⟩ := head_key k hk r
      rw [fmt, if_pos (by decide), if_neg (by rw [hq]; simp [hx]), if_neg (by decide), scanField, scan _ r hk.plain hr]
  rcases he with ⟨k, hk, he | he⟩ | ⟨he, hb⟩
  · refine judges_bad T d s l ps a _ hr hs hl hp he fun n => ?_
    have := bad k [] n hk (.inl rfl)
    rwa [List.append_nil] at this
  · exact judges_bad T d s l ps a _ hr hs hl hp (by rw [he, List.append_assoc]; rfl) fun n => bad k _ n hk (.inr rfl)
  · refine judges_bad T d s l ps a _ hr hs hl hp he fun n => ?_
    cases n with
    | zero => rfl
    | succ n => rw [fmt, if_pos (by decide), if_neg hb, if_pos (by decide)]

/-- C90, violation: the conversions `!r` and `!a` do nothing. Whatever the text Python has for them, the text that is put out is that
of the value. -/
theorem c90_conversions (T : Texts) (l : List (String × Val)) (k : String) (v : Val) (c : Conv) (hc : c = .repr ∨ c = .ascii) (hk : Usable k)
    (hl : l.lookup k = some v) (n : Nat) (hn : k.toList.length + 4 ≤ n) :
    fmt T l n ('{' :: k.toList ++ ['!', c.letter, '}']) = some (T.text v) := by
  obtain ⟨m, _, e⟩ := fmt_piece T l _ _ (Written.conv k c hk) [] n (by simp; omega)
  rw [List.append_nil] at e
  have hf : fmt T l m [] = some [] := by cases m <;> rfl
  rw [e, hf, pieceText, keyText, hl]
  rcases hc with rfl | rfl <;> simp [convert, Conv.letter]

/-- C90, violation: FormatStringList fails whatever it is given. -/
theorem c90_list (d : NodeData) (v : Val) (hr : Ready d) (hv : value d "format_strings" = some v) : Judges formatStringList d .failed := by
  apply judges_of _ _ _ hr
  simp only [formatStringList, value_begun, hv, need]
  rfl

/-! ### File names -/

/-- `e` can be the extension of `f ++ e`: a dot and no slash or dot after it, and what it belongs to does not consist of dots only. -/
def Extension (f e : List Char) : Prop :=
  (∃ x, e = '.' :: x ∧ '.' ∉ x ∧ '/' ∉ x) ∧ ∃ a c b, f = a ++ c :: b ∧ c ≠ '.' ∧ c ≠ '/' ∧ '/' ∉ b

/-- `p` consists of `f` and the extension `e`, which is empty if there is none. -/
def Splits (p f e : List Char) : Prop :=
  p = f ++ e ∧ (Extension f e ∨ e = [] ∧ ∀ f' e', p = f' ++ e' → ¬ Extension f' e')

theorem takeWhile_not_mem (l : List Char) (c : Char) : c ∉ l.takeWhile (· != c) := by
  intro h
  induction l with
  | nil => cases h
  | cons a l ih =>
    rw [List.takeWhile_cons] at h
    split at h
    · rename_i ha
      rcases List.mem_cons.mp h with rfl | h
      · simp at ha
      · exact ih h
    · cases h

theorem cut_unique (c : Char) (x y f g : List Char) (hx : c ∉ x) (hy : c ∉ y) (h : x ++ c :: f = y ++ c :: g) : x = y ∧ f = g := by
  induction x generalizing y with
  | nil =>
    cases y with
    | nil => simpa using h
    | cons a y => simp at h; exact absurd (h.1 ▸ List.mem_cons_self ..) hy
  | cons b x ih =>
    cases y with
    | nil => simp at h; exact absurd (h.1 ▸ List.mem_cons_self ..) hx
    | cons a y =>
      simp only [List.cons_append, List.cons.injEq] at h
      obtain ⟨rfl, h⟩ := h
      obtain ⟨rfl, rfl⟩ := ih y (fun h => hx (List.mem_cons_of_mem _ h)) (fun h => hy (List.mem_cons_of_mem _ h)) h
      exact ⟨rfl, rfl⟩

theorem named_iff (f : List Char) : (f.reverse.takeWhile (· != '/')).any (· != '.') = true ↔ ∃ a c b, f = a ++ c :: b ∧ c ≠ '.' ∧ c ≠ '/' ∧ '/' ∉ b := by
  constructor
  · intro h
    obtain ⟨c, hc, hd⟩ := List.any_eq_true.mp h
    obtain ⟨x, y, hxy⟩ := List.append_of_mem hc
    have hs : '/' ∉ f.reverse.takeWhile (· != '/') := takeWhile_not_mem _ _
    rw [hxy] at hs
    simp only [List.mem_append, List.mem_cons, not_or] at hs
    refine ⟨(f.reverse.dropWhile (· != '/')).reverse ++ y.reverse, c, x.reverse, ?_, by simpa using hd, fun h => hs.2.1 h.symm, by simpa using hs.1⟩
    have := List.takeWhile_append_dropWhile (p := (· != '/')) (l := f.reverse)
    rw [hxy] at this
    have := congrArg List.reverse this
    simp only [List.reverse_append, List.reverse_cons, List.reverse_reverse, List.append_assoc] at this
    simpa using this.symm
  · rintro ⟨a, c, b, rfl, h1, h2, h3⟩
    refine List.any_eq_true.mpr ⟨c, ?_, by simpa using h1⟩
    have e : (a ++ c :: b).reverse = b.reverse ++ c :: a.reverse := by simp
    rw [e, List.takeWhile_append_of_pos (by intro x hx; simp at hx; simp; intro h; exact h3 (h ▸ hx))]
    simp [h2]

theorem splitext_splits (p : List Char) : Splits p (splitext p).1 (splitext p).2 := by
  have hcut : p.reverse.takeWhile (· != '.') ++ p.reverse.dropWhile (· != '.') = p.reverse := List.takeWhile_append_dropWhile
  have hx : '.' ∉ p.reverse.takeWhile (· != '.') := takeWhile_not_mem _ _
  have only : ∀ f e, p = f ++ e → Extension f e → ∃ x, e = '.' :: x ∧ '/' ∉ x ∧ (f.reverse.takeWhile (· != '/')).any (· != '.') = true ∧
      p.reverse.takeWhile (· != '.') = x.reverse ∧ p.reverse.dropWhile (· != '.') = '.' :: f.reverse := by
    rintro f e rfl ⟨⟨x, rfl, h1, h2⟩, h3⟩
    refine ⟨x, rfl, h2, (named_iff f).mpr h3, ?_⟩
    have e : (f ++ '.' :: x).reverse = x.reverse ++ '.' :: f.reverse := by simp
    have hall : ∀ y ∈ x.reverse, (y != '.') = true := by intro y hy; simp at hy; simp; intro h; exact h1 (h ▸ hy)
    rw [e, List.takeWhile_append_of_pos hall, List.dropWhile_append_of_pos hall]
    simp
  unfold splitext
  dsimp only
  cases hd : p.reverse.dropWhile (· != '.') with
  | nil =>
    refine ⟨by simp, .inr ⟨rfl, fun f e hp he => ?_⟩⟩
    obtain ⟨x, _, _, _, _, h⟩ := only f e hp he
    rw [hd] at h
    cases h
  | cons dot f =>
    have hdot : dot = '.' := by
      have := List.head?_dropWhile_not (· != '.') p.reverse
      rw [hd] at this
      simpa using this
    subst hdot
    dsimp only
    split
    · rename_i h
      rw [Bool.and_eq_true] at h
      refine ⟨?_, .inl ⟨⟨_, rfl, by simpa using hx, by simpa using h.1⟩, (named_iff _).mp (by rw [List.reverse_reverse]; exact h.2)⟩⟩
      rw [hd] at hcut
      have := congrArg List.reverse hcut
      rw [List.reverse_reverse] at this
      simpa using this.symm
    · rename_i h
      refine ⟨by simp, .inr ⟨rfl, fun f' e' hp he => h ?_⟩⟩
      obtain ⟨x, _, h1, h2, h3, h4⟩ := only f' e' hp he
      rw [hd] at h4
      obtain ⟨-, rfl⟩ := List.cons.inj h4
      rw [h3, Bool.and_eq_true]
      exact ⟨by simpa using h1, h2⟩

theorem extension_unique {f e f' e' : List Char} (h : Extension f e) (h' : Extension f' e') (he : f ++ e = f' ++ e') : f = f' ∧ e = e' := by
  obtain ⟨⟨x, rfl, h1, _⟩, _⟩ := h
  obtain ⟨⟨y, rfl, h2, _⟩, _⟩ := h'
  have := congrArg List.reverse he
  simp only [List.reverse_append, List.reverse_cons, List.append_assoc, List.singleton_append] at this
  obtain ⟨a, b⟩ := cut_unique '.' _ _ _ _ (by simpa using h1) (by simpa using h2) this
  exact ⟨List.reverse_inj.mp b, by rw [List.reverse_inj.mp a]⟩

theorem splits_unique {p f e f' e' : List Char} (h : Splits p f e) (h' : Splits p f' e') : f = f' ∧ e = e' := by
  obtain ⟨rfl, h⟩ := h
  obtain ⟨hp, h'⟩ := h'
  rcases h with h | ⟨rfl, h⟩
  · rcases h' with h' | ⟨rfl, h'⟩
    · exact extension_unique h h' hp
    · exact absurd h (h' _ _ rfl)
  · rcases h' with h' | ⟨rfl, h'⟩
    · exact absurd h' (h _ _ hp)
    · simpa using hp

/-- C90: GetFileExtension puts out the file name and the extension. -/
theorem c90_extension (d : NodeData) (p : String) (f e : List Char) (hr : Ready d) (hp : value d "path" = some (.str p))
    (hs : Splits p.toList f e) (hf : Takes d "filename" (.str (String.ofList f))) (he : Takes d "extension" (.str (String.ofList e))) :
    (tick getFileExtension d).res = some (.ok .succeeded) ∧ Shows (tick getFileExtension d).data "filename" (.str (String.ofList f)) ∧
      Shows (tick getFileExtension d).data "extension" (.str (String.ofList e)) ∧ ∀ k, value (tick getFileExtension d).data k = value d k := by
  obtain ⟨rfl, rfl⟩ := splits_unique hs (splitext_splits p.toList)
  have hh : getFileExtension (begun d) = putAll (begun d) [("filename", .str (String.ofList (splitext p.toList).1)),
      ("extension", .str (String.ofList (splitext p.toList).2))] .succeeded := by
    simp only [getFileExtension, valueAs, value_begun, hp, Option.bind_some, asStr, need]
  obtain ⟨a1, a2, a3, _⟩ := putAll_spec [("filename", .str (String.ofList (splitext p.toList).1)),
      ("extension", .str (String.ofList (splitext p.toList).2))] .succeeded (begun d) (by simp) (by
        intro q hq
        simp only [List.mem_cons, List.not_mem_nil, or_false] at hq
        rcases hq with rfl | rfl
        · exact takes_begun d _ _ hf
        · exact takes_begun d _ _ he)
  obtain ⟨t1, t2, t3⟩ := tick_ok getFileExtension d .succeeded hr (by rw [hh]; exact a1)
  rw [hh] at t2 t3
  refine ⟨t1, ?_, ?_, fun k => value_tick _ _ _ (by rw [t3, a3]; rfl)⟩
  · obtain ⟨w, h1, h2⟩ := a2 ("filename", .str (String.ofList (splitext p.toList).1)) (by simp)
    exact ⟨w, by rw [outputValue, t2]; exact h1, h2⟩
  · obtain ⟨w, h1, h2⟩ := a2 ("extension", .str (String.ofList (splitext p.toList).2)) (by simp)
    exact ⟨w, by rw [outputValue, t2]; exact h1, h2⟩

/-! ### Reading from ROS -/

/-- C91: RosParam puts out the value of the parameter. -/
theorem c91_param (params : List (String × Option Val)) (d : NodeData) (k : String) (v : Val) (hr : Ready d)
    (hk : value d "param_name" = some (.str k)) (hp : params.lookup k = some (some v)) (ht : Takes d "param" v) :
    Yields (rosParam params) d "param" v := by
  apply yields_of_put _ _ _ _ hr ht
  simp [rosParam, valueAs, value_begun, hk, asStr, need, hp]

/-- C91: RosParam puts out the default value if the parameter is declared without a value. -/
theorem c91_default_partial (params : List (String × Option Val)) (d : NodeData) (k : String) (v : Val) (hr : Ready d)
    (hk : value d "param_name" = some (.str k)) (hp : params.lookup k = some none) (hv : value d "default_value" = some v)
    (ht : Takes d "param" v) : Yields (rosParam params) d "param" v := by
  apply yields_of_put _ _ _ _ hr ht
  simp [rosParam, valueAs, value_begun, hk, asStr, need, hp, hv]

/-- C91, violation: if there is no such parameter, the node fails although it has a default value. -/
theorem c91_missing (params : List (String × Option Val)) (d : NodeData) (k : String) (hr : Ready d)
    (hk : value d "param_name" = some (.str k)) (hp : ∀ v, (k, v) ∉ params) : Judges (rosParam params) d .failed := by
  apply judges_of _ _ _ hr
  have : params.lookup k = none := by
    rw [List.lookup_eq_none_iff]
    rintro ⟨a, b⟩ h
    simp only [bne_iff_ne, ne_eq]
    rintro rfl
    exact hp b h
  simp [rosParam, valueAs, value_begun, hk, asStr, need, this]

/-- C91: GetTimeNow puts out the time of the clock. -/
theorem c91_time (now : Val) (d : NodeData) (hr : Ready d) (ht : Takes d "current_time" now) : Yields (getTimeNow now) d "current_time" now :=
  yields_of_put _ _ _ _ hr ht rfl

/-! ### Examples -/

/-- A FormatString node. -/
def sampleFormat (s : String) : NodeData :=
  { inputs := [("format_string", cont (.string 100 none) (.str s)),
      ("dict", cont (.dict (.string 100 none) true 10 false) (.dict [("first", .str "bar"), ("second", .str "-7")]))],
    outputs := [("formatted_string", cont (.string 100 none) (.str ""))] }

theorem usable_first : Usable "first" := ⟨by decide, 'f', by decide, by decide⟩

theorem usable_second : Usable "second" := ⟨by decide, 's', by decide, by decide⟩

/-- `{{foo}} {first}{second!u}` -/
theorem sample_template : Template [.text "{foo} ".toList, .key "first" none, .key "second" (some .upper)] "{{foo}} {first}{second!u}".toList :=
  .cons _ _ "{{foo}} ".toList "{first}{second!u}".toList
    (.opening _ _ (.char 'f' _ _ (by decide) (by decide) (.char 'o' _ _ (by decide) (by decide) (.char 'o' _ _ (by decide) (by decide)
      (.closing _ _ (.char ' ' _ _ (by decide) (by decide) .nil))))))
    (.cons _ _ "{first}".toList "{second!u}".toList (.key "first" usable_first)
      (.cons _ _ "{second!u}".toList [] (.conv "second" .upper usable_second) .nil))

/-- Texts that are in upper case as they are. -/
def sampleTexts : Texts :=
  { str := fun _ => "?".toList, upper := id, lower := id, capitalize := id, spec := fun _ _ => none, access := fun _ _ => none }

example : Yields (formatString sampleTexts) (sampleFormat "{{foo}} {first}{second!u}") "formatted_string" (.str "{foo} bar-7") :=
  c90_format_partial sampleTexts _ _ [("first", .str "bar"), ("second", .str "-7")] _ "{foo} bar-7".toList
    (by simp [Ready, sampleFormat, cont]) rfl rfl sample_template
    (.cons _ _ "{foo} ".toList "bar-7".toList (.text _) (.cons _ _ "bar".toList "-7".toList (.plain "first" (.str "bar") rfl)
      (.cons _ _ "-7".toList [] (.upper "second" (.str "-7") rfl) .nil)))
    ⟨_, rfl, rfl, .string (by decide) (by intro o h; cases h)⟩

example : Judges (formatString sampleTexts) (sampleFormat "{first!x}") .failed :=
  c90_unknown sampleTexts _ "{first!x}" _ [] "first" 'x' [] [] (by simp [Ready, sampleFormat, cont]) rfl rfl .nil usable_first rfl
    (by intro v; cases v <;> decide)

example : Judges (formatString sampleTexts) (sampleFormat "{first{") .failed :=
  c90_braces sampleTexts _ "{first{" _ [] [] [] (by simp [Ready, sampleFormat, cont]) rfl rfl .nil (.inl ⟨"first", usable_first, .inr rfl⟩)

example : splitext "/a.b/c.tar.gz".toList = ("/a.b/c.tar".toList, ".gz".toList) := by decide +kernel

example : splitext "/a.b/.bashrc".toList = ("/a.b/.bashrc".toList, []) := by decide +kernel

example : Splits "/a.b/c.gz".toList "/a.b/c".toList ".gz".toList :=
  ⟨rfl, .inl ⟨⟨"gz".toList, rfl, by decide, by decide⟩, "/a.b/".toList, 'c', [], rfl, by decide, by decide, by decide⟩⟩

/-- A RosParam node. -/
def sampleParam : NodeData :=
  { inputs := [("param_name", cont (.string 100 none) (.str "speed")), ("default_value", cont (.int 0 100) (.int 3))],
    outputs := [("param", cont (.int 0 100) (.int 0))] }

example : Judges (rosParam [("other", some (.int 1))]) sampleParam .failed :=
  c91_missing _ _ "speed" (by simp [Ready, sampleParam, cont]) rfl (by simp)

example : Yields (rosParam [("speed", none)]) sampleParam "param" (.int 3) :=
  c91_default_partial _ _ "speed" _ (by simp [Ready, sampleParam, cont]) rfl rfl rfl ⟨_, rfl, rfl, .int (.int _) (by decide) (by decide)⟩

end Verif.Nodes
