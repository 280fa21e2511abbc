import Verif.Files.Load

/-! C94: the program that migrates tree files (`migrate_tree_files.py`). Files are given by their absolute paths; what the YAML library reads and writes is a parameter. -/

set_option autoImplicit false

namespace Verif.Files

/-- The YAML library: `yaml.safe_load` of a text (`none`: an exception or not a mapping; otherwise the value of `version` if there and all the
rest), and `yaml.safe_dump` of a mapping with a version. -/
structure Lib where
  load : String → Option (Option Nat × String)
  dump : Nat → String → String

/-- migrate_tree_files.py 60-65: the names that are tried: `name_new.ext`, `name_new_1.ext`, `name_new_2.ext`, … -/
def newName (n : Name) : Nat → Name
  | 0 => (splitExt n).1 ++ ['_', 'n', 'e', 'w'] ++ (splitExt n).2
  | k + 1 => (splitExt n).1 ++ ['_', 'n', 'e', 'w', '_'] ++ Nat.toDigits 10 (k + 1) ++ (splitExt n).2

/-- migrate_tree_files.py 61-65: the loop that looks for a name that does not exist; `none`: the number of rounds does not suffice. -/
def findName (fs : Fs) (dir : Path) (n : Name) : Nat → Nat → Option Name
  | 0, _ => none
  | f + 1, k => if (fs.at (dir ++ [newName n k])).isSome then findName fs dir n f (k + 1) else some (newName n k)

/-- migrate_tree_files.py 53-81: one round of the loop over the arguments; `false`: an exception ends the program. -/
def migrateFile (env : Env) (lib : Lib) (disk : Disk) (inplace : Bool) (fs : Fs) (file : Path) : Fs × Bool :=
  match file.getLast? with
  | none => (fs, false)
  | some n =>
    match if inplace then some n else findName fs file.dropLast n (fs.length + 1) 0 with
    | none => (fs, false)
    | some new =>
      match fs.at file with
      | some (.file c) =>
        match lib.load c with
        | none => (fs, false)
        | some (v, body) =>
          match migrate env v with
          | none => (fs, false)
          | some false => (fs, true)
          | some true =>
            if disk.noOpen (file.dropLast ++ [new]) then (fs, false)
            else
              match disk.broken with
              | some junk => ((file.dropLast ++ [new], .file junk) :: fs, false)
              | none => ((file.dropLast ++ [new], .file (lib.dump env.current body)) :: fs, true)
      | _ => (fs, false)

/-- migrate_tree_files.py 48-81: `main`. -/
def migrateAll (env : Env) (lib : Lib) (disk : Disk) (inplace : Bool) : Fs → List Path → Fs
  | fs, [] => fs
  | fs, file :: rest =>
    match migrateFile env lib disk inplace fs file with
    | (fs', true) => migrateAll env lib disk inplace fs' rest
    | (fs', false) => fs'

/-! ### Names -/

theorem findName_free (fs : Fs) (dir : Path) (n : Name) : ∀ (f k : Nat) (m : Name), findName fs dir n f k = some m → fs.at (dir ++ [m]) = none ∧ ∃ j, m = newName n j
  | 0, _, _, h => by cases h
  | f + 1, k, m, h => by
    rw [findName] at h
    split at h
    · exact findName_free fs dir n f (k + 1) m h
    · rename_i hk
      cases h
      exact ⟨by cases hf : fs.at (dir ++ [newName n k]) with
        | none => rfl
        | some e => rw [hf] at hk; exact absurd rfl hk, k, rfl⟩

theorem newName_inj (n : Name) (i j : Nat) (h : newName n i = newName n j) : i = j := by
  cases i with
  | zero =>
    cases j with
    | zero => rfl
    | succ j =>
      have := congrArg List.length h
      simp only [newName, List.length_append, List.length_cons, List.length_nil] at this
      omega
  | succ i =>
    cases j with
    | zero =>
      have := congrArg List.length h
      simp only [newName, List.length_append, List.length_cons, List.length_nil] at this
      omega
    | succ j =>
      have h1 : Nat.toDigits 10 (i + 1) = Nat.toDigits 10 (j + 1) := by
        have := List.append_cancel_right h
        exact List.append_cancel_left this
      have := toDigits_inj h1
      omega

theorem findName_none (fs : Fs) (dir : Path) (n : Name) : ∀ (f k : Nat), findName fs dir n f k = none → ∀ j, k ≤ j → j < k + f → (fs.at (dir ++ [newName n j])).isSome = true
  | 0, _, _, _, h1, h2 => absurd h2 (by omega)
  | f + 1, k, h, j, h1, h2 => by
    rw [findName] at h
    split at h
    · rename_i hk
      by_cases e : j = k
      · subst e; exact hk
      · exact findName_none fs dir n f (k + 1) h j (by omega) (by omega)
    · cases h

theorem findName_works (fs : Fs) (dir : Path) (n : Name) : ∃ m, findName fs dir n (fs.length + 1) 0 = some m := by
  cases h : findName fs dir n (fs.length + 1) 0 with
  | some m => exact ⟨m, rfl⟩
  | none =>
    exfalso
    have hall := findName_none fs dir n _ _ h
    have inj : ∀ i j, dir ++ [newName n i] = dir ++ [newName n j] → i = j := fun i j e =>
      newName_inj n i j (by simpa using List.append_cancel_left e)
    have hnd : ∀ (l : List Nat), l.Nodup → (l.map fun j => dir ++ [newName n j]).Nodup := by
      intro l
      induction l with
      | nil => simp
      | cons a l ih =>
        intro h
        rw [List.nodup_cons] at h
        rw [List.map_cons, List.nodup_cons]
        refine ⟨fun hm => ?_, ih h.2⟩
        obtain ⟨b, hb, he⟩ := List.mem_map.mp hm
        exact h.1 (inj _ _ he ▸ hb)
    have hsub : ((List.range (fs.length + 1)).map fun j => dir ++ [newName n j]) ⊆ fs.map (·.1) := by
      intro x hx
      obtain ⟨j, hj, rfl⟩ := List.mem_map.mp hx
      have := hall j (Nat.zero_le _) (by have := List.mem_range.mp hj; omega)
      unfold Fs.at at this
      rw [if_neg (by simp)] at this
      obtain ⟨e, he⟩ := Option.isSome_iff_exists.mp this
      exact List.mem_map.mpr ⟨_, mem_of_lookup he, rfl⟩
    have := List.Nodup.length_le_of_subset (hnd _ List.nodup_range) hsub
    simp at this
    omega

/-! ### C94 -/

theorem migrateFile_keeps (env : Env) (lib : Lib) (disk : Disk) (fs : Fs) (file : Path) : Keeps fs (migrateFile env lib disk false fs file).1 := by
  unfold migrateFile
  split
  · exact keeps_refl fs
  · rename_i n hn
    rw [if_neg (by simp)]
    split
    · exact keeps_refl fs
    · rename_i new hnew
      have hfree := (findName_free fs _ n _ _ new hnew).1
      have add : ∀ c, Keeps fs ((file.dropLast ++ [new], .file c) :: fs) := by
        intro c q e hq
        rw [at_cons _ _ _ _ (by simp)]
        split
        · rename_i heq
          subst heq
          rw [hfree] at hq
          cases hq
        · exact hq
      repeat' split
      all_goals first | exact keeps_refl fs | exact add _

/-- C94: without `--inplace` nothing that exists is changed, whatever files are named and whatever goes wrong. -/
theorem c94_keeps (env : Env) (lib : Lib) (disk : Disk) (fs : Fs) (files : List Path) : Keeps fs (migrateAll env lib disk false fs files) := by
  induction files generalizing fs with
  | nil => exact keeps_refl fs
  | cons file rest ih =>
    have h := migrateFile_keeps env lib disk fs file
    rw [migrateAll]
    cases hm : migrateFile env lib disk false fs file with
    | mk fs' b =>
      rw [hm] at h
      cases b with
      | true => exact h.trans (ih fs')
      | false => exact h

/-- A file that can be migrated: a mapping with a version from 1.0.0 on. -/
def Migratable (env : Env) (lib : Lib) (fs : Fs) (file : Path) (body : String) : Prop :=
  ∃ c v, fs.at file = some (.file c) ∧ lib.load c = some (some v, body) ∧ env.lt v env.one = some false

/-- The names of copies: the name without extension, `_new`, possibly a number, and the extension. -/
def CopyName (n m : Name) : Prop :=
  ∃ stem ext number, n = stem ++ ext ∧ (ext = [] ∨ ext.head? = some '.') ∧ (number = [] ∨ ∃ k : Nat, number = '_' :: Nat.toDigits 10 k) ∧ m = stem ++ nm "_new" ++ number ++ ext

theorem newName_copy (n : Name) (k : Nat) : CopyName n (newName n k) := by
  have hext : (splitExt n).2 = [] ∨ (splitExt n).2.head? = some '.' := by
    unfold splitExt
    split
    · exact Or.inl rfl
    · split
      · exact Or.inr rfl
      · exact Or.inl rfl
  cases k with
  | zero => exact ⟨_, _, [], (splitExt_append n).symm, hext, Or.inl rfl, by rw [List.append_nil]; rfl⟩
  | succ k => exact ⟨_, _, '_' :: Nat.toDigits 10 (k + 1), (splitExt_append n).symm, hext, Or.inr ⟨_, rfl⟩, by simp [newName, nm]⟩

/-- C94: without `--inplace`, a file that can be migrated gets a copy with the installed version, next to it under a name that did not exist and that consists of its name, `_new` and possibly a number, and
its extension. -/
theorem c94_copy (env : Env) (lib : Lib) (disk : Disk) (hd : disk.Fine) (fs : Fs) (dir : Path) (n : Name) (body : String)
    (h : Migratable env lib fs (dir ++ [n]) body) :
    ∃ m, CopyName n m ∧ fs.at (dir ++ [m]) = none ∧ (∀ p, (migrateAll env lib disk false fs [dir ++ [n]]).at p =
      if p = dir ++ [m] then some (.file (lib.dump env.current body)) else fs.at p) := by
  obtain ⟨c, v, h1, h2, h3⟩ := h
  obtain ⟨m, hm⟩ := findName_works fs dir n
  obtain ⟨hfree, k, rfl⟩ := findName_free fs dir n _ _ m hm
  refine ⟨newName n k, newName_copy n k, hfree, fun p => ?_⟩
  have : migrateFile env lib disk false fs (dir ++ [n]) = ((dir ++ [newName n k], .file (lib.dump env.current body)) :: fs, true) := by
    unfold migrateFile
    simp [hm, h1, h2, h3, migrate, hd.1, hd.2]
  rw [migrateAll, this]
  dsimp only [migrateAll]
  rw [at_cons _ _ _ _ (by simp)]

/-- What a file that is named in place becomes: migrated if it can be, otherwise it stays. -/
theorem migrateFile_inplace (env : Env) (lib : Lib) (disk : Disk) (hb : disk.broken = none) (fs : Fs) (file : Path) :
    (∀ p, p ≠ file → (migrateFile env lib disk true fs file).1.at p = fs.at p) ∧
    ((migrateFile env lib disk true fs file).1.at file = fs.at file ∨
      ∃ v c body, fs.at file = some (.file c) ∧ lib.load c = some (v, body) ∧ (migrateFile env lib disk true fs file).1.at file = some (.file (lib.dump env.current body))) := by
  unfold migrateFile
  cases hn : file.getLast? with
  | none => exact ⟨fun _ _ => rfl, Or.inl rfl⟩
  | some n =>
    have hfile : file.dropLast ++ [n] = file := by
      cases file with
      | nil => cases hn
      | cons a l => rw [List.getLast?_eq_some_getLast (by simp)] at hn; cases hn; exact List.dropLast_concat_getLast (by simp)
    dsimp only
    rw [if_pos rfl]
    dsimp only
    cases ha : fs.at file with
    | none => exact ⟨fun _ _ => rfl, Or.inl ha⟩
    | some e =>
      cases e with
      | dir => exact ⟨fun _ _ => rfl, Or.inl ha⟩
      | file c =>
        dsimp only
        cases hl : lib.load c with
        | none => exact ⟨fun _ _ => rfl, Or.inl ha⟩
        | some vb =>
          obtain ⟨v, body⟩ := vb
          dsimp only
          cases migrate env v with
          | none => exact ⟨fun _ _ => rfl, Or.inl ha⟩
          | some b =>
            cases b with
            | false => exact ⟨fun _ _ => rfl, Or.inl ha⟩
            | true =>
              dsimp only
              rw [hfile, hb]
              have h0 : file ≠ [] := by rintro rfl; cases hn
              split
              · exact ⟨fun _ _ => rfl, Or.inl ha⟩
              · refine ⟨fun p hp => ?_, Or.inr ⟨v, c, body, rfl, hl, ?_⟩⟩
                · dsimp only; rw [at_cons _ _ _ _ h0, if_neg hp]
                · dsimp only; rw [at_cons _ _ _ _ h0, if_pos rfl]

/-- C94: with `--inplace`, nothing but the files that are named is changed. `_partial`: this, like all that is said about `--inplace`, needs that no error occurs while writing (see `c94_lost`). -/
theorem c94_inplace_others_partial (env : Env) (lib : Lib) (disk : Disk) (hb : disk.broken = none) (fs : Fs) (files : List Path) (p : Path) (hp : p ∉ files) :
    (migrateAll env lib disk true fs files).at p = fs.at p := by
  induction files generalizing fs with
  | nil => rfl
  | cons file rest ih =>
    simp only [List.mem_cons, not_or] at hp
    have h := (migrateFile_inplace env lib disk hb fs file).1 p hp.1
    rw [migrateAll]
    cases hm : migrateFile env lib disk true fs file with
    | mk fs' b =>
      rw [hm] at h
      cases b with
      | true => exact (ih fs' hp.2).trans h
      | false => exact h

/-- C94: with `--inplace`, a file that can be migrated gets the installed version and keeps the rest; a file that is too old stays as it is, and the program goes on with the next one. -/
theorem c94_inplace_partial (env : Env) (lib : Lib) (disk : Disk) (hd : disk.Fine) (fs : Fs) (file : Path) (h0 : file ≠ []) (c : String) (v : Option Nat) (body : String)
    (h1 : fs.at file = some (.file c)) (h2 : lib.load c = some (v, body)) :
    (env.lt (v.getD env.zero) env.one = some false → (migrateFile env lib disk true fs file).2 = true ∧
      (migrateFile env lib disk true fs file).1.at file = some (.file (lib.dump env.current body))) ∧
    (env.lt (v.getD env.zero) env.one = some true → migrateFile env lib disk true fs file = (fs, true)) := by
  have hn : ∃ n, file.getLast? = some n ∧ file.dropLast ++ [n] = file := by
    cases file with
    | nil => exact absurd rfl h0
    | cons a l => exact ⟨_, List.getLast?_eq_some_getLast (by simp), List.dropLast_concat_getLast (by simp)⟩
  obtain ⟨n, hn, hf⟩ := hn
  unfold migrateFile
  rw [hn]
  constructor
  · intro hv
    simp only [h1, h2, migrate, hv, Option.map_some, Bool.not_false, if_true, hf, hd.1, hd.2, Bool.false_eq_true, if_false, true_and]
    rw [at_cons _ _ _ _ h0, if_pos rfl]
  · intro hv
    simp [h1, h2, migrate, hv]

/-- C94: what has been migrated in place can be migrated again, and that changes nothing, if the library reads what it has written. -/
theorem c94_twice (env : Env) (lib : Lib) (disk : Disk) (hd : disk.Fine) (fs : Fs) (file : Path) (h0 : file ≠ []) (body : String) (hl : ∀ v b, lib.load (lib.dump v b) = some (some v, b))
    (hc : env.lt env.current env.one = some false) (h : Migratable env lib fs file body) :
    (migrateAll env lib disk true fs [file, file]).at file = (migrateAll env lib disk true fs [file]).at file := by
  obtain ⟨c, v, h1, h2, h3⟩ := h
  have k := (c94_inplace_partial env lib disk hd fs file h0 c (some v) body h1 h2).1 h3
  cases hm : migrateFile env lib disk true fs file with
  | mk fs' b =>
    rw [hm] at k
    obtain ⟨rfl, k⟩ := k
    have k2 := (c94_inplace_partial env lib disk hd fs' file h0 _ (some env.current) body k (hl _ _)).1 hc
    rw [migrateAll, hm]
    dsimp only
    rw [migrateAll]
    cases hm2 : migrateFile env lib disk true fs' file with
    | mk fs2 b2 =>
      rw [hm2] at k2
      obtain ⟨rfl, k2⟩ := k2
      dsimp only [migrateAll]
      rw [hm]
      dsimp only [migrateAll]
      rw [k2, k]

theorem copy_proper {dir : Path} {n m : Name} (hp : Proper (dir ++ [n])) (h : CopyName n m) : Proper (dir ++ [m]) := by
  obtain ⟨stem, ext, number, rfl, _, hk, rfl⟩ := h
  intro x hx
  rcases List.mem_append.1 hx with hx | hx
  · exact hp x (by simp [hx])
  · simp only [List.mem_singleton] at hx
    subst hx
    have hn := (hp (stem ++ ext) (by simp)).2.2.2
    simp only [List.mem_append, not_or] at hn
    have hu : '_' ∈ stem ++ nm "_new" ++ number ++ ext := by simp [nm]
    refine ⟨?_, ?_, ?_, ?_⟩
    · intro e; rw [e] at hu; simp at hu
    · intro e; rw [e] at hu; simp at hu
    · intro e; rw [e] at hu; simp at hu
    · simp only [List.mem_append, not_or]
      refine ⟨⟨⟨hn.1, by decide⟩, ?_⟩, hn.2⟩
      rcases hk with rfl | ⟨k, rfl⟩
      · simp
      · simp only [List.mem_cons, not_or]
        exact ⟨by decide, fun hm => absurd (toDigits_digits k '/' hm) (by decide)⟩

/-- C94: the migrated copy of a file with nodes can be loaded, if the text that is written reads as one document of the installed version. -/
theorem c94_loads (env : Env) (lib : Lib) (disk : Disk) (hd : disk.Fine) (fs : Fs) (cwd dir : Path) (n : Name) (body : String) (t : TreeMsg) (i : Nat) (h : Migratable env lib fs (dir ++ [n]) body)
    (hp : Proper (dir ++ [n])) (ht : OneTree env (lib.dump env.current body) t) (hn : t.nodes ≠ []) :
    ∃ m, CopyName n m ∧ fs.at (dir ++ [m]) = none ∧
      openTree (env.on cwd (migrateAll env lib disk false fs [dir ++ [n]])) (filePrefix ++ text (dir ++ [m])) (i + 1) { path := filePrefix ++ text (dir ++ [m]) } =
        some (.loaded { t with path := filePrefix ++ text (dir ++ [m]) }) := by
  obtain ⟨m, h0, h1, h2⟩ := c94_copy env lib disk hd fs dir n body h
  refine ⟨m, h0, h1, c93_file_partial _ i _ (lib.dump env.current body) t ⟨_, Or.inl rfl, ?_⟩ ht hn⟩
  show (match (migrateAll env lib disk false fs [dir ++ [n]]).at (abspath cwd (text (dir ++ [m]))) with | some (.file c) => some c | _ => none) = _
  rw [abspath_text cwd _ (copy_proper hp h0) (by simp), h2, if_pos rfl]

/-- Violation of C94: a file that is not a mapping (e.g. an empty file) ends the program, the files after it are not migrated. -/
theorem c94_abort (env : Env) (lib : Lib) (disk : Disk) (inplace : Bool) (fs : Fs) (file : Path) (rest : List Path) (c : String) (h1 : fs.at file = some (.file c)) (h2 : lib.load c = none) :
    migrateAll env lib disk inplace fs (file :: rest) = fs := by
  have : migrateFile env lib disk inplace fs file = (fs, false) := by
    unfold migrateFile
    split
    · rfl
    · split
      · rfl
      · rw [h1]
        dsimp only
        rw [h2]
  rw [migrateAll, this]

/-! ### Samples -/

/-- `A` and `2a` are mappings with a version, `B` is one without. -/
def sampleLib : Lib where
  load s := if s = "A" then some (some 1, "a") else if s = "B" then some (none, "b") else if s = "2a" then some (some 2, "a") else none
  dump v b := toString v ++ b

/-- Version 2 is installed. -/
def sampleEnv2 : Env := { sampleEnv with current := 2 }

/-- `a.yaml` can be migrated, `b.yaml` is too old, `c.yaml` is empty. -/
def sampleFs2 : Fs := [([nm "d"], .dir), ([nm "d", nm "a.yaml"], .file "A"), ([nm "d", nm "a_new.yaml"], .file "X"), ([nm "d", nm "b.yaml"], .file "B"), ([nm "d", nm "c.yaml"], .file "")]

example : Migratable sampleEnv2 sampleLib sampleFs2 [nm "d", nm "a.yaml"] "a" := ⟨"A", 1, by decide, by decide, by decide⟩

/-- For `c94_keeps` and `c94_copy`. -/
example : migrateAll sampleEnv2 sampleLib {} false sampleFs2 [[nm "d", nm "b.yaml"], [nm "d", nm "a.yaml"], [nm "d", nm "c.yaml"], [nm "d", nm "a.yaml"]] =
    ([nm "d", nm "a_new_1.yaml"], .file "2a") :: sampleFs2 := by decide

/-- For `c94_inplace_partial` and `c94_twice`. -/
example : (migrateAll sampleEnv2 sampleLib {} true sampleFs2 [[nm "d", nm "b.yaml"], [nm "d", nm "a.yaml"], [nm "d", nm "a.yaml"]]).at [nm "d", nm "a.yaml"] = some (.file "2a") := by decide

/-- A library that reads what it writes: the version in unary, a colon, the rest. -/
def unaryLib : Lib where
  load s := match s.toList.dropWhile (· == 'x') with
    | ':' :: b => some (some (s.toList.takeWhile (· == 'x')).length, String.ofList b)
    | _ => none
  dump v b := String.ofList (List.replicate v 'x' ++ ':' :: b.toList)

theorem unary_reads (v : Nat) (b : String) : unaryLib.load (unaryLib.dump v b) = some (some v, b) := by
  have h : ∀ v : Nat, (List.replicate v 'x' ++ ':' :: b.toList).dropWhile (· == 'x') = ':' :: b.toList ∧
      ((List.replicate v 'x' ++ ':' :: b.toList).takeWhile (· == 'x')).length = v := by
    intro v
    induction v with
    | zero => simp
    | succ v ih => simp only [List.replicate_succ, List.cons_append, List.dropWhile_cons, List.takeWhile_cons, beq_self_eq_true, if_true, List.length_cons]; exact ⟨ih.1, by rw [ih.2]⟩
  simp only [unaryLib, String.toList_ofList, (h v).1, (h v).2, String.ofList_toList]

/-- For `c94_twice`: all that it asks for. -/
example : (∀ v b, unaryLib.load (unaryLib.dump v b) = some (some v, b)) ∧ sampleEnv2.lt sampleEnv2.current sampleEnv2.one = some false ∧
    Migratable sampleEnv2 unaryLib [([nm "a"], .file "x:tree")] [nm "a"] "tree" :=
  ⟨unary_reads, rfl, "x:tree", 1, by decide, by decide, rfl⟩

/-- For `c94_loads`: the copy is loaded. -/
example : loadPath (({ sampleEnv2 with yaml := fun s => if s = "2a" then [.doc (some (.map (some 2) (some { nodes := [{ name := 7 }] })))] else [.error] } : Env).on []
    (migrateAll sampleEnv2 sampleLib {} false sampleFs2 [[nm "d", nm "a.yaml"]])) 1 1 (filePrefix ++ nm "/d/a_new_1.yaml") =
      some (.loaded { nodes := [{ name := 7 }], path := filePrefix ++ nm "/d/a_new_1.yaml" }) := by decide

/-- Violation of C94: an error while writing in place (e.g. a full disk) destroys the file. -/
theorem c94_lost : sampleFs2.at [nm "d", nm "a.yaml"] = some (.file "A") ∧
    (migrateAll sampleEnv2 sampleLib { broken := some "" } true sampleFs2 [[nm "d", nm "a.yaml"]]).at [nm "d", nm "a.yaml"] = some (.file "") := by decide

end Verif.Files
