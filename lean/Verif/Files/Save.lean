import Verif.Files.Names

/-! C55, C68 and C69: `PackageManager.save_tree_to_path` (`package_manager.py`). A path is the list of its components from the root. Symbolic links
are left out, and so is what other programs do to the files in the meantime. -/

set_option autoImplicit false

namespace Verif.Files

/-! ### Paths -/

/-- A component of a path. -/
abbrev Name := List Char

/-- An absolute path in normal form. -/
abbrev Path := List Name

/-- `str.split('/')` -/
def parts : List Char → List Name
  | [] => [[]]
  | c :: r =>
    if c = '/' then [] :: parts r
    else match parts r with
      | [] => [[c]]
      | x :: xs => (c :: x) :: xs

/-- The loop of `os.path.normpath` for an absolute path. -/
def walk : Path → List Name → Path
  | base, [] => base
  | base, x :: xs =>
    if x = [] ∨ x = ['.'] then walk base xs
    else if x = ['.', '.'] then walk base.dropLast xs
    else walk (base ++ [x]) xs

/-- `os.path.abspath` -/
def abspath (cwd : Path) (s : List Char) : Path := if s.head? = some '/' then walk [] (parts s) else walk cwd (parts s)

/-- `os.path.join` -/
def join (a b : List Char) : List Char :=
  if b.head? = some '/' then b else if a = [] ∨ a.getLast? = some '/' then a ++ b else a ++ '/' :: b

/-- `os.path.splitext` on the last component. -/
def splitExt (n : Name) : Name × Name :=
  match n.reverse.dropWhile (· ≠ '.') with
  | [] => (n, [])
  | _ :: before => if before.any (· ≠ '.') then (before.reverse, '.' :: (n.reverse.takeWhile (· ≠ '.')).reverse) else (n, [])

/-! ### File systems -/

/-- What is at a path. -/
inductive Entry
  | dir
  | file (content : String)
  deriving DecidableEq

/-- A file system; the first entry for a path counts. -/
abbrev Fs := List (Path × Entry)

/-- What is at a path; the root is a directory. -/
def Fs.at (fs : Fs) (p : Path) : Option Entry := if p = [] then some .dir else fs.lookup p

/-- `os.path.isfile` -/
def Fs.isFile (fs : Fs) (p : Path) : Bool := match fs.at p with | some (.file _) => true | _ => false

/-- What may go wrong: directories that cannot be made, a file that cannot be opened, an error while writing that leaves something else behind. -/
structure Disk where
  noMkdir : Path → Bool := fun _ => false
  noOpen : Path → Bool := fun _ => false
  broken : Option String := none

/-- `os.mkdir`; `false`: `OSError`. -/
def mkdir (disk : Disk) (fs : Fs) (p : Path) : Fs × Bool :=
  if (fs.at p).isSome || disk.noMkdir p || !(fs.at p.dropLast = some .dir) then (fs, false) else ((p, .dir) :: fs, true)

/-- `os.makedirs`, the path being given backwards; `false`: `OSError`. -/
def makedirsRev (disk : Disk) (fs : Fs) : List Name → Fs × Bool
  | [] => (fs, false)
  | c :: up =>
    if (fs.at up.reverse).isSome then mkdir disk fs (c :: up).reverse
    else
      match makedirsRev disk fs up with
      | (fs', true) => mkdir disk fs' (c :: up).reverse
      | r => r

/-- `os.makedirs` -/
def makedirs (disk : Disk) (fs : Fs) (p : Path) : Fs × Bool := makedirsRev disk fs p.reverse

/-! ### Saving -/

/-- srv/SaveTree.srv; the tree is the text that is written. -/
structure Request where
  storage : List Char
  filepath : List Char
  tree : String
  allowOverwrite : Bool
  allowRename : Bool

/-- The answer: `success` with `file_path`, no `success`, or an exception. -/
inductive Out
  | saved (p : Path)
  | refused
  | raised
  deriving DecidableEq

/-- package_manager.py 72-76: the loop of `make_filepath_unique`. `increment_name` gets the whole path, which makes no difference: the character before the
last component is a slash. `none`: the number of rounds does not suffice (or `ValueError`). -/
def uniqueName (taken : Name → Bool) (ext : Name) : Nat → Name → Option Name
  | 0, _ => none
  | f + 1, n =>
    if taken (n ++ ext) then
      match increment n with
      | none => none
      | some m => uniqueName taken ext f m
    else some (n ++ ext)

/-- package_manager.py 72-76: `make_filepath_unique`; as many rounds as there are files suffice. -/
def makeUnique (fs : Fs) (dir : Path) (n : Name) : Option Name :=
  uniqueName (fun m => (fs.at (dir ++ [m])).isSome) (splitExt n).2 (fs.length + 1) (splitExt n).1

/-- package_manager.py 191-206: writing the file. -/
def writeTree (disk : Disk) (fs : Fs) (p : Path) (tree : String) : Fs × Out :=
  if disk.noOpen p then (fs, .refused)
  else
    match disk.broken with
    | some junk => ((p, .file junk) :: fs, .refused)
    | none => ((p, .file tree) :: fs, .saved p)

/-- package_manager.py 153-155: where the tree shall be saved. -/
def target (cwd : Path) (r : Request) : Path := abspath cwd (join r.storage r.filepath)

/-- package_manager.py 169-200: after the directory has been made. -/
def saveIn (disk : Disk) (fs : Fs) (r : Request) (dir : Path) (n : Name) : Fs × Out :=
  match fs.at (dir ++ [n]) with
  | some .dir => (fs, .refused)
  | some (.file _) =>
    if r.allowRename then
      match makeUnique fs dir n with
      | none => (fs, .raised)
      | some m => if fs.isFile (dir ++ [m]) then (fs, .refused) else writeTree disk fs (dir ++ [m]) r.tree
    else if r.allowOverwrite then writeTree disk fs (dir ++ [n]) r.tree
    else (fs, .refused)
  | none => writeTree disk fs (dir ++ [n]) r.tree

/-- package_manager.py 122-206: `save_tree_to_path`. The root directory splits into two empty strings, no directory can be made of that. -/
def save (stores : List (List Char)) (cwd : Path) (disk : Disk) (fs : Fs) (r : Request) : Fs × Out :=
  if r.storage ∈ stores then
    match (target cwd r).getLast? with
    | none => (fs, .refused)
    | some n =>
      let dir := (target cwd r).dropLast
      match makedirs disk fs dir with
      | (fs', made) => if made || fs'.at dir = some .dir then saveIn disk fs' r dir n else (fs', .refused)
  else (fs, .refused)

/-! ### What stays -/

/-- Everything that was there is there. -/
def Keeps (fs fs' : Fs) : Prop := ∀ p e, fs.at p = some e → fs'.at p = some e

theorem keeps_refl (fs : Fs) : Keeps fs fs := fun _ _ h => h

theorem Keeps.trans {a b c : Fs} (h : Keeps a b) (g : Keeps b c) : Keeps a c := fun p e hp => g p e (h p e hp)

theorem at_cons (fs : Fs) (p q : Path) (e : Entry) (hp : p ≠ []) : Fs.at ((p, e) :: fs) q = if q = p then some e else fs.at q := by
  unfold Fs.at
  by_cases hq : q = []
  · subst hq
    rw [if_pos rfl, if_neg (fun h => hp h.symm), if_pos rfl]
  · rw [if_neg hq, if_neg hq]
    simp only [List.lookup]
    by_cases h : q = p
    · subst h; simp
    · have : (q == p) = false := by simpa using h
      rw [this, if_neg h]

theorem mkdir_keeps (disk : Disk) (fs : Fs) (p : Path) : Keeps fs (mkdir disk fs p).1 := by
  unfold mkdir
  split
  · exact keeps_refl fs
  · rename_i h
    simp only [Bool.or_eq_true, not_or] at h
    intro q e hq
    have hp : p ≠ [] := by rintro rfl; exact h.1.1 (by simp [Fs.at])
    show Fs.at ((p, Entry.dir) :: fs) q = some e
    rw [at_cons fs p q .dir hp]
    split
    · rename_i heq
      subst heq
      rw [hq] at h
      exact absurd rfl h.1.1
    · exact hq

theorem makedirsRev_keeps (disk : Disk) : ∀ (p : List Name) (fs : Fs), Keeps fs (makedirsRev disk fs p).1 := by
  intro p
  induction p with
  | nil => intro fs; exact keeps_refl fs
  | cons c up ih =>
    intro fs
    simp only [makedirsRev]
    split
    · exact mkdir_keeps _ _ _
    · have := ih fs
      split
      · rename_i fs' h
        rw [h] at this
        exact this.trans (mkdir_keeps _ _ _)
      · exact this

theorem makedirs_keeps (disk : Disk) (fs : Fs) (p : Path) : Keeps fs (makedirs disk fs p).1 := makedirsRev_keeps _ _ _

theorem uniqueName_free (taken : Name → Bool) (ext : Name) : ∀ (f : Nat) (n m : Name), uniqueName taken ext f n = some m → taken m = false ∧
    ∃ j s, incrementTimes j n = some s ∧ m = s ++ ext := by
  intro f
  induction f with
  | zero => intro n m h; cases h
  | succ f ih =>
    intro n m h
    simp only [uniqueName] at h
    split at h
    · split at h
      · cases h
      · rename_i m1 hi
        obtain ⟨h1, j, s, h2, h3⟩ := ih m1 m h
        refine ⟨h1, j + 1, s, ?_, h3⟩
        have : ∀ j s, incrementTimes j m1 = some s → incrementTimes (j + 1) n = some s := by
          intro j
          induction j with
          | zero => intro s h; simp only [incrementTimes, Option.bind_some]; cases h; exact hi
          | succ j ih =>
            intro s h
            rw [incrementTimes] at h ⊢
            cases hj : incrementTimes j m1 with
            | none => rw [hj] at h; cases h
            | some x => rw [hj] at h; rw [ih x hj]; exact h
        exact this j s h2
    · rename_i ht
      cases h
      exact ⟨by simpa using ht, 0, n, rfl, rfl⟩

/-- All that saving in a directory can do. -/
theorem saveIn_cases (disk : Disk) (fs : Fs) (r : Request) (dir : Path) (n : Name) :
    ((saveIn disk fs r dir n).1 = fs ∧ ∀ p, (saveIn disk fs r dir n).2 ≠ .saved p) ∨
    ∃ m, (m = n ∧ fs.at (dir ++ [n]) = none ∨ (∃ c, m = n ∧ fs.at (dir ++ [n]) = some (.file c) ∧ r.allowOverwrite = true ∧ r.allowRename = false) ∨
        (fs.at (dir ++ [m]) = none ∧ r.allowRename = true ∧ ∃ j s, incrementTimes j (splitExt n).1 = some s ∧ m = s ++ (splitExt n).2)) ∧
      (disk.broken = none ∧ saveIn disk fs r dir n = ((dir ++ [m], .file r.tree) :: fs, .saved (dir ++ [m])) ∨
       ∃ junk, disk.broken = some junk ∧ saveIn disk fs r dir n = ((dir ++ [m], .file junk) :: fs, .refused)) := by
  have hw : ∀ m, ((writeTree disk fs (dir ++ [m]) r.tree).1 = fs ∧ ∀ p, (writeTree disk fs (dir ++ [m]) r.tree).2 ≠ .saved p) ∨
      (disk.broken = none ∧ writeTree disk fs (dir ++ [m]) r.tree = ((dir ++ [m], .file r.tree) :: fs, .saved (dir ++ [m])) ∨
       ∃ junk, disk.broken = some junk ∧ writeTree disk fs (dir ++ [m]) r.tree = ((dir ++ [m], .file junk) :: fs, .refused)) := by
    intro m
    unfold writeTree
    split
    · exact .inl ⟨rfl, by simp⟩
    · split
      · rename_i junk hj; exact .inr (.inr ⟨junk, hj, rfl⟩)
      · rename_i hj; exact .inr (.inl ⟨hj, rfl⟩)
  unfold saveIn
  split
  · exact .inl ⟨rfl, by simp⟩
  · rename_i c hc
    split
    · rename_i hr
      split
      · exact .inl ⟨rfl, by simp⟩
      · rename_i m hm
        split
        · exact .inl ⟨rfl, by simp⟩
        · obtain ⟨h1, h2⟩ := uniqueName_free _ _ _ _ _ hm
          rcases hw m with h | h
          · exact .inl h
          · exact .inr ⟨m, .inr (.inr ⟨by simpa using h1, hr, h2⟩), h⟩
    · rename_i hr
      split
      · rename_i ho
        rcases hw n with h | h
        · exact .inl h
        · exact .inr ⟨n, .inr (.inl ⟨c, rfl, hc, ho, by simpa using hr⟩), h⟩
      · exact .inl ⟨rfl, by simp⟩
  · rename_i hn
    rcases hw n with h | h
    · exact .inl h
    · exact .inr ⟨n, .inl ⟨rfl, hn⟩, h⟩

/-- All that saving can do. -/
theorem save_cases (stores : List (List Char)) (cwd : Path) (disk : Disk) (fs : Fs) (r : Request) :
    ∃ fs1, Keeps fs fs1 ∧ (((save stores cwd disk fs r).1 = fs1 ∧ ∀ p, (save stores cwd disk fs r).2 ≠ .saved p) ∨
    ∃ dir n m, target cwd r = dir ++ [n] ∧ r.storage ∈ stores ∧
      (m = n ∧ fs1.at (dir ++ [n]) = none ∨ (∃ c, m = n ∧ fs1.at (dir ++ [n]) = some (.file c) ∧ r.allowOverwrite = true ∧ r.allowRename = false) ∨
        (fs1.at (dir ++ [m]) = none ∧ r.allowRename = true ∧ ∃ j s, incrementTimes j (splitExt n).1 = some s ∧ m = s ++ (splitExt n).2)) ∧
      (disk.broken = none ∧ save stores cwd disk fs r = ((dir ++ [m], .file r.tree) :: fs1, .saved (dir ++ [m])) ∨
       ∃ junk, disk.broken = some junk ∧ save stores cwd disk fs r = ((dir ++ [m], .file junk) :: fs1, .refused))) := by
  unfold save
  split
  · rename_i hst
    cases hl : (target cwd r).getLast? with
    | none => exact ⟨fs, keeps_refl fs, .inl ⟨rfl, by simp⟩⟩
    | some n =>
      have ht : target cwd r = (target cwd r).dropLast ++ [n] := by
        have hne : target cwd r ≠ [] := by intro e; rw [e] at hl; cases hl
        have := List.dropLast_concat_getLast hne
        rw [List.getLast?_eq_some_getLast hne] at hl
        cases hl
        exact this.symm
      have hk := makedirs_keeps disk fs (target cwd r).dropLast
      generalize (target cwd r).dropLast = dir at *
      cases hm : makedirs disk fs dir with
      | mk fs1 made =>
        rw [hm] at hk
        refine ⟨fs1, hk, ?_⟩
        simp only [hm]
        split
        · rcases saveIn_cases disk fs1 r dir n with h | ⟨m, h1, h2⟩
          · exact .inl h
          · exact .inr ⟨dir, n, m, ht, hst, h1, h2⟩
        · exact .inl ⟨rfl, by simp⟩
  · exact ⟨fs, keeps_refl fs, .inl ⟨rfl, by simp⟩⟩

/-! ### C55 -/

/-- C55: whatever happens, no directory is changed, and a file is changed only if it is the one asked for, overwriting is allowed and renaming is not. -/
theorem c55_overwrite (stores : List (List Char)) (cwd : Path) (disk : Disk) (fs : Fs) (r : Request) (p : Path) (e : Entry) (h : fs.at p = some e) :
    (save stores cwd disk fs r).1.at p = some e ∨
    (p = target cwd r ∧ r.allowOverwrite = true ∧ r.allowRename = false ∧ (∃ c, e = .file c) ∧ ∃ c, (save stores cwd disk fs r).1.at p = some (.file c)) := by
  obtain ⟨fs1, hk, ⟨h1, _⟩ | ⟨dir, n, m, ht, _, hm, hr⟩⟩ := save_cases stores cwd disk fs r
  · exact .inl (by rw [h1]; exact hk p e h)
  · have hp := hk p e h
    have write : ∀ c, Fs.at ((dir ++ [m], Entry.file c) :: fs1) p = some e ∨
        (p = target cwd r ∧ r.allowOverwrite = true ∧ r.allowRename = false ∧ (∃ c, e = .file c) ∧ ∃ c', Fs.at ((dir ++ [m], Entry.file c) :: fs1) p = some (.file c')) := by
      intro c
      rw [at_cons _ _ _ _ (by simp)]
      by_cases hpm : p = dir ++ [m]
      · rw [if_pos hpm]
        rcases hm with ⟨rfl, g⟩ | ⟨c', rfl, g1, g2, g3⟩ | ⟨g, _⟩
        · rw [hpm, g] at hp; cases hp
        · rw [hpm, g1] at hp; cases hp
          exact .inr ⟨hpm.trans ht.symm, g2, g3, ⟨c', rfl⟩, c, rfl⟩
        · rw [hpm, g] at hp; cases hp
      · rw [if_neg hpm]; exact .inl hp
    rcases hr with ⟨_, hr⟩ | ⟨junk, _, hr⟩ <;> rw [hr] <;> exact write _

/-- C55: a tree that is said to be saved is in the file that is named, and everything else is as before (directories may have been added). -/
theorem c55_saved (stores : List (List Char)) (cwd : Path) (disk : Disk) (fs : Fs) (r : Request) (p : Path) (h : (save stores cwd disk fs r).2 = .saved p) :
    r.storage ∈ stores ∧ (save stores cwd disk fs r).1.at p = some (.file r.tree) ∧
    (∀ q e, q ≠ p → fs.at q = some e → (save stores cwd disk fs r).1.at q = some e) ∧
    (p ≠ target cwd r → r.allowRename = true) ∧ p.dropLast = (target cwd r).dropLast := by
  obtain ⟨fs1, hk, ⟨_, h1⟩ | ⟨dir, n, m, ht, hst, hm, hr⟩⟩ := save_cases stores cwd disk fs r
  · exact absurd h (h1 p)
  · rcases hr with ⟨_, hr⟩ | ⟨junk, _, hr⟩
    · rw [hr] at h ⊢
      cases h
      refine ⟨hst, by rw [at_cons _ _ _ _ (by simp), if_pos rfl], fun q e hq he => ?_, fun hne => ?_, by rw [ht]; simp⟩
      · rw [at_cons _ _ _ _ (by simp), if_neg hq]; exact hk q e he
      · rcases hm with ⟨rfl, _⟩ | ⟨c', rfl, _⟩ | ⟨_, g, _⟩
        · exact absurd ht.symm hne
        · exact absurd ht.symm hne
        · exact g
    · rw [hr] at h; cases h

/-- C55: with renaming allowed the tree is saved only under a name that did not exist. -/
theorem c55_rename (stores : List (List Char)) (cwd : Path) (disk : Disk) (fs : Fs) (r : Request) (p : Path) (ha : r.allowRename = true)
    (h : (save stores cwd disk fs r).2 = .saved p) : fs.at p = none := by
  obtain ⟨fs1, hk, ⟨_, h1⟩ | ⟨dir, n, m, ht, _, hm, hr⟩⟩ := save_cases stores cwd disk fs r
  · exact absurd h (h1 p)
  · have hfree : fs1.at (dir ++ [m]) = none := by
      rcases hm with ⟨rfl, g⟩ | ⟨c', rfl, _, _, g⟩ | ⟨g, _⟩
      · exact g
      · rw [ha] at g; cases g
      · exact g
    rcases hr with ⟨_, hr⟩ | ⟨junk, _, hr⟩
    · rw [hr] at h
      cases h
      cases hf : fs.at (dir ++ [m]) with
      | none => rfl
      | some e => rw [hk _ _ hf] at hfree; cases hfree
    · rw [hr] at h; cases h

/-- A path without a last part is the root. -/
theorem target_split {cwd : Path} {r : Request} {dir : Path} {n : Name} (ht : target cwd r = dir ++ [n]) :
    (target cwd r).getLast? = some n ∧ (target cwd r).dropLast = dir := by rw [ht]; simp

/-- What is below something is below a directory. -/
def Fs.Sound (fs : Fs) : Prop := ∀ p e, p ≠ [] → fs.at p = some e → fs.at p.dropLast = some .dir

theorem makedirs_existing (disk : Disk) (fs : Fs) (dir : Path) (hs : fs.Sound) (h : fs.at dir = some .dir) : makedirs disk fs dir = (fs, false) := by
  unfold makedirs
  cases hr : dir.reverse with
  | nil => rfl
  | cons c up =>
    have hd : dir = (c :: up).reverse := by rw [← hr, List.reverse_reverse]
    simp only [makedirsRev]
    have hup : fs.at up.reverse = some .dir := by
      have := hs dir .dir (by rw [hd]; simp) h
      rw [hd] at this
      simpa using this
    rw [hup, if_pos (by rfl)]
    unfold mkdir
    rw [← hd, h]
    simp

theorem mem_of_lookup {fs : Fs} {p : Path} {e : Entry} (h : fs.lookup p = some e) : (p, e) ∈ fs := by
  induction fs with
  | nil => cases h
  | cons q fs ih =>
    obtain ⟨k, x⟩ := q
    simp only [List.lookup] at h
    split at h
    · rename_i hk; cases h; rw [beq_iff_eq.mp hk]; simp
    · exact List.mem_cons_of_mem _ (ih h)

/-- A disk on which nothing goes wrong. -/
def Disk.Fine (d : Disk) : Prop := d.broken = none ∧ ∀ p, d.noOpen p = false

/-- C55: if the file exists and neither is allowed, nothing happens. -/
theorem c55_refused (stores : List (List Char)) (cwd : Path) (disk : Disk) (fs : Fs) (r : Request) (hs : fs.Sound) (c : String)
    (h : fs.at (target cwd r) = some (.file c)) (h1 : r.allowRename = false) (h2 : r.allowOverwrite = false) :
    save stores cwd disk fs r = (fs, .refused) := by
  unfold save
  split
  · split
    · rfl
    · rename_i n hl
      have hne : target cwd r ≠ [] := by intro e; rw [e] at hl; cases hl
      have ht : (target cwd r).dropLast ++ [n] = target cwd r := by
        have := List.dropLast_concat_getLast hne
        rw [List.getLast?_eq_some_getLast hne] at hl
        cases hl
        exact this
      have hd := hs _ _ hne h
      simp only [makedirs_existing disk fs _ hs hd, hd, decide_true, Bool.or_true, if_true]
      unfold saveIn
      rw [ht, h]
      simp [h1, h2]
  · rfl

/-- C55: if renaming is allowed and nothing goes wrong, the tree is saved. -/
theorem c55_rename_works (stores : List (List Char)) (cwd : Path) (disk : Disk) (fs : Fs) (r : Request) (hs : fs.Sound) (hd : disk.Fine) (dir : Path) (n : Name)
    (ht : target cwd r = dir ++ [n]) (hst : r.storage ∈ stores) (hdir : fs.at dir = some .dir) (hn : fs.at (dir ++ [n]) ≠ some .dir)
    (ha : r.allowRename = true) (hlen : n.length < maxDigits) (hfs : fs.length < 10 ^ (maxDigits - 1)) :
    ∃ p, (save stores cwd disk fs r).2 = .saved p := by
  have hw : ∀ m, (writeTree disk fs (dir ++ [m]) r.tree).2 = .saved (dir ++ [m]) := by
    intro m; unfold writeTree; rw [hd.2, hd.1]; rfl
  unfold save
  rw [if_pos hst, (target_split ht).1, (target_split ht).2]
  simp only [makedirs_existing disk fs _ hs hdir, hdir, decide_true, Bool.or_true, if_true]
  unfold saveIn
  split
  · rename_i h; exact absurd h hn
  · rw [if_pos ha]
    -- the names that exist in the directory, without the extension
    have hext : ∃ a b, splitExt n = (a, b) ∧ a.length ≤ n.length := by
      refine ⟨(splitExt n).1, (splitExt n).2, rfl, ?_⟩
      unfold splitExt
      split
      · exact Nat.le_refl _
      · rename_i x before hb
        split
        · have h1 := List.takeWhile_append_dropWhile (p := fun c => decide (c ≠ '.')) (l := n.reverse)
          have h2 := congrArg List.length h1
          rw [hb] at h2
          simp at h2 ⊢
          omega
        · exact Nat.le_refl _
    obtain ⟨a, ext, hsplit, hal⟩ := hext
    obtain ⟨m, hm⟩ : ∃ m, makeUnique fs dir n = some m := by
      unfold makeUnique
      rw [hsplit]
      dsimp only
      let taken : List Name := fs.filterMap fun p => match p.1.getLast? with
        | some l => if l.drop (l.length - ext.length) = ext then some (l.take (l.length - ext.length)) else none
        | none => none
      have hin : ∀ s : Name, (fs.at (dir ++ [s ++ ext])).isSome = true → s ∈ taken := by
        intro s hsome
        unfold Fs.at at hsome
        rw [if_neg (by simp)] at hsome
        obtain ⟨e, he⟩ := Option.isSome_iff_exists.mp hsome
        refine List.mem_filterMap.mpr ⟨_, mem_of_lookup he, ?_⟩
        simp
      obtain ⟨j, hj, t, ht1, ht2⟩ := c54_fresh a taken (by omega) (Nat.lt_of_le_of_lt (List.length_filterMap_le _ _) hfs)
      have hjf : j ≤ fs.length := Nat.le_trans hj (List.length_filterMap_le _ _)
      have hfree : (fs.at (dir ++ [t ++ ext])).isSome = false := by
        cases h : (fs.at (dir ++ [t ++ ext])).isSome with
        | false => rfl
        | true => exact absurd (hin t h) ht2
      -- the loop finds the first free name
      have loop : ∀ (f j : Nat) (b t : Name), j < f → incrementTimes j b = some t → (fs.at (dir ++ [t ++ ext])).isSome = false →
          ∃ m, uniqueName (fun m => (fs.at (dir ++ [m])).isSome) ext f b = some m := by
        intro f
        induction f with
        | zero => intro j b t hj; omega
        | succ f ih =>
          intro j b t hj hinc hfree
          simp only [uniqueName]
          split
          · rename_i hb
            cases j with
            | zero => cases hinc; rw [hfree] at hb; cases hb
            | succ j =>
              have hstep : ∀ j s, incrementTimes (j + 1) b = some s → ∃ b', increment b = some b' ∧ incrementTimes j b' = some s := by
                intro j
                induction j with
                | zero => intro s h; simp only [incrementTimes, Option.bind_some] at h; exact ⟨s, h, rfl⟩
                | succ j ih =>
                  intro s h
                  rw [incrementTimes] at h
                  cases hj : incrementTimes (j + 1) b with
                  | none => rw [hj] at h; cases h
                  | some x =>
                    rw [hj] at h
                    obtain ⟨b', h1, h2⟩ := ih x hj
                    exact ⟨b', h1, by rw [incrementTimes, h2]; exact h⟩
              obtain ⟨b', h1, h2⟩ := hstep j t hinc
              rw [h1]
              exact ih j b' t (by omega) h2 hfree
          · exact ⟨_, rfl⟩
      exact loop (fs.length + 1) j a t (by omega) ht1 hfree
    rw [hm]
    have hfree := (uniqueName_free _ _ _ _ _ hm).1
    have hnf : fs.isFile (dir ++ [m]) = false := by
      unfold Fs.isFile
      cases h : fs.at (dir ++ [m]) with
      | none => rfl
      | some e => rw [h] at hfree; cases hfree
    dsimp only
    rw [hnf]
    exact ⟨_, hw m⟩
  · exact ⟨_, hw n⟩

/-- C55: if the file does not exist and nothing goes wrong, the tree is saved there. -/
theorem c55_new (stores : List (List Char)) (cwd : Path) (disk : Disk) (fs : Fs) (r : Request) (hs : fs.Sound) (hd : disk.Fine) (dir : Path) (n : Name)
    (ht : target cwd r = dir ++ [n]) (hst : r.storage ∈ stores) (hdir : fs.at dir = some .dir) (hn : fs.at (dir ++ [n]) = none) :
    (save stores cwd disk fs r).2 = .saved (dir ++ [n]) := by
  unfold save
  rw [if_pos hst, (target_split ht).1, (target_split ht).2]
  simp only [makedirs_existing disk fs _ hs hdir, hdir, decide_true, Bool.or_true, if_true]
  unfold saveIn
  rw [hn]
  dsimp only
  unfold writeTree
  rw [hd.2, hd.1]
  rfl

/-- C55: an allowed overwrite happens. -/
theorem c55_overwrite_works (stores : List (List Char)) (cwd : Path) (disk : Disk) (fs : Fs) (r : Request) (hs : fs.Sound) (hd : disk.Fine) (dir : Path) (n : Name)
    (ht : target cwd r = dir ++ [n]) (hst : r.storage ∈ stores) (c : String) (hn : fs.at (dir ++ [n]) = some (.file c))
    (ho : r.allowOverwrite = true) (ha : r.allowRename = false) : (save stores cwd disk fs r).2 = .saved (dir ++ [n]) := by
  have hdir : fs.at dir = some .dir := by simpa using hs _ _ (by simp) hn
  unfold save
  rw [if_pos hst, (target_split ht).1, (target_split ht).2]
  simp only [makedirs_existing disk fs _ hs hdir, hdir, decide_true, Bool.or_true, if_true]
  unfold saveIn
  rw [hn]
  simp only [ha, ho, if_true]
  unfold writeTree
  rw [hd.2, hd.1]
  rfl

/-! ### C69: failed saves -/

/-- C69: a save that fails leaves everything that was there as it was, unless writing breaks off. -/
theorem c69_failed_partial (stores : List (List Char)) (cwd : Path) (disk : Disk) (fs : Fs) (r : Request) (hd : disk.broken = none)
    (h : ∀ p, (save stores cwd disk fs r).2 ≠ .saved p) : Keeps fs (save stores cwd disk fs r).1 := by
  obtain ⟨fs1, hk, ⟨h1, _⟩ | ⟨dir, n, m, _, _, _, hr⟩⟩ := save_cases stores cwd disk fs r
  · rw [h1]; exact hk
  · rcases hr with ⟨_, hr⟩ | ⟨junk, hj, _⟩
    · exact absurd (by rw [hr]) (h (dir ++ [m]))
    · rw [hd] at hj; cases hj

/-! ### C68: where trees are saved -/

theorem parts_ne (s : List Char) : parts s ≠ [] := by
  cases s with
  | nil => simp [parts]
  | cons c s =>
    simp only [parts]
    split
    · simp
    · split <;> simp

theorem parts_slash (a b : List Char) : parts (a ++ '/' :: b) = parts a ++ parts b := by
  induction a with
  | nil => simp [parts]
  | cons c a ih =>
    simp only [List.cons_append, parts]
    rw [ih]
    split
    · rfl
    · cases h : parts a with
      | nil => exact absurd h (parts_ne a)
      | cons x xs => simp

theorem walk_append (base : Path) (xs ys : List Name) : walk base (xs ++ ys) = walk (walk base xs) ys := by
  induction xs generalizing base with
  | nil => rfl
  | cons x xs ih =>
    simp only [List.cons_append, walk]
    split
    · exact ih base
    · split <;> exact ih _

/-- A relative path is followed from the storage folder. -/
theorem target_relative (cwd : Path) (r : Request) (h : r.filepath.head? ≠ some '/') :
    target cwd r = walk (abspath cwd r.storage) (parts r.filepath) := by
  unfold target join
  rw [if_neg h]
  have hhead : ∀ a b : List Char, a ≠ [] → (a ++ b).head? = a.head? := by
    intro a b ha; cases a with
    | nil => exact absurd rfl ha
    | cons c a => rfl
  split
  · rename_i hs
    rcases hs with hs | hs
    · rw [hs]
      simp only [List.nil_append]
      unfold abspath
      rw [if_neg h, if_neg (by simp)]
      rfl
    · have hne : r.storage ≠ [] := by intro e; rw [e] at hs; cases hs
      have hsplit : r.storage = r.storage.dropLast ++ ['/'] := by
        have := List.dropLast_concat_getLast hne
        rw [List.getLast?_eq_some_getLast hne] at hs
        have hs : r.storage.getLast hne = '/' := by simpa using hs
        rw [hs] at this
        exact this.symm
      have hp : ∀ base, walk base (parts (r.storage ++ r.filepath)) = walk (walk base (parts r.storage)) (parts r.filepath) := by
        intro base
        rw [hsplit]
        have e1 : r.storage.dropLast ++ ['/'] ++ r.filepath = r.storage.dropLast ++ '/' :: r.filepath := by simp
        rw [e1, parts_slash, walk_append]
        have e2 : parts (r.storage.dropLast ++ ['/']) = parts r.storage.dropLast ++ [[]] := by
          rw [parts_slash]; rfl
        rw [e2, walk_append]
        rfl
      unfold abspath
      rw [hhead _ _ hne]
      split <;> exact hp _
  · rename_i hs
    have hne : r.storage ≠ [] := fun e => hs (.inl e)
    unfold abspath
    rw [hhead _ _ hne]
    split <;> rw [parts_slash, walk_append]

theorem walk_down (base : Path) (xs : List Name) (h : ['.', '.'] ∉ xs) : ∃ ys, walk base xs = base ++ ys ∧ (∀ x ∈ xs, x ≠ [] → x ≠ ['.'] → x ∈ ys) := by
  induction xs generalizing base with
  | nil => exact ⟨[], by simp [walk], by simp⟩
  | cons x xs ih =>
    have hx : x ≠ ['.', '.'] := fun e => h (by simp [e])
    have hxs : ['.', '.'] ∉ xs := fun e => h (by simp [e])
    simp only [walk, if_neg hx]
    split
    · rename_i hc
      obtain ⟨ys, h1, h2⟩ := ih base hxs
      refine ⟨ys, h1, fun z hz hz1 hz2 => ?_⟩
      rcases List.mem_cons.mp hz with rfl | hz
      · rcases hc with hc | hc
        · exact absurd hc hz1
        · exact absurd hc hz2
      · exact h2 z hz hz1 hz2
    · obtain ⟨ys, h1, h2⟩ := ih (base ++ [x]) hxs
      refine ⟨x :: ys, by rw [h1]; simp, fun z hz hz1 hz2 => ?_⟩
      rcases List.mem_cons.mp hz with rfl | hz
      · simp
      · exact List.mem_cons_of_mem _ (h2 z hz hz1 hz2)

/-- C68: a relative file path without `..` (and with at least one name) leads below the storage folder. -/
theorem c68_below_partial (stores : List (List Char)) (cwd : Path) (disk : Disk) (fs : Fs) (r : Request) (p : Path) (h : r.filepath.head? ≠ some '/')
    (hdots : ['.', '.'] ∉ parts r.filepath) (x : Name) (hx : x ∈ parts r.filepath) (hx1 : x ≠ []) (hx2 : x ≠ ['.'])
    (hs : (save stores cwd disk fs r).2 = .saved p) : ∃ rel, rel ≠ [] ∧ p = abspath cwd r.storage ++ rel := by
  obtain ⟨fs1, hk, ⟨_, h1⟩ | ⟨dir, n, m, ht, _, hm, hr⟩⟩ := save_cases stores cwd disk fs r
  · exact absurd hs (h1 p)
  · rcases hr with ⟨_, hr⟩ | ⟨junk, _, hr⟩
    · rw [hr] at hs
      cases hs
      obtain ⟨ys, h1, h2⟩ := walk_down (abspath cwd r.storage) (parts r.filepath) hdots
      have hy : ys ≠ [] := by intro e; have := h2 x hx hx1 hx2; rw [e] at this; cases this
      rw [target_relative cwd r h, h1] at ht
      have hd : dir = abspath cwd r.storage ++ ys.dropLast := by
        have := congrArg List.dropLast ht
        rw [List.dropLast_append_of_ne_nil hy] at this
        simpa using this.symm
      exact ⟨ys.dropLast ++ [m], by simp, by rw [hd]; simp⟩
    · rw [hr] at hs; cases hs

/-! ### Examples -/

/-- A string as a list of characters. -/
abbrev nm (s : String) : Name := s.toList

/-- Two storage folders, a home folder and some trees. -/
def sampleFs : Fs := [([nm "trees"], .dir), ([nm "home"], .dir), ([nm "home", nm "secret.yaml"], .file "secret"), ([nm "trees", nm "a.yaml"], .file "A"),
  ([nm "trees", nm "a_2.yaml"], .file "A2")]

/-- A request to save `a.yaml`. -/
def sampleReq (o rn : Bool) : Request := ⟨nm "/trees", nm "a.yaml", "new", o, rn⟩

theorem sampleFs_sound : sampleFs.Sound := by
  intro p e hp h
  unfold Fs.at at h
  rw [if_neg hp] at h
  simp only [sampleFs, List.lookup] at h
  split at h
  · rename_i hk; rw [beq_iff_eq.mp hk]; decide
  · split at h
    · rename_i hk; rw [beq_iff_eq.mp hk]; decide
    · split at h
      · rename_i hk; rw [beq_iff_eq.mp hk]; decide
      · split at h
        · rename_i hk; rw [beq_iff_eq.mp hk]; decide
        · split at h
          · rename_i hk; rw [beq_iff_eq.mp hk]; decide
          · cases h

example : (save [nm "/trees"] [] {} sampleFs (sampleReq false true)).2 = .saved [nm "trees", nm "a_3.yaml"] := by decide

example : (save [nm "/trees"] [] {} sampleFs (sampleReq true false)).2 = .saved [nm "trees", nm "a.yaml"] := by decide

example : (save [nm "/trees"] [] {} sampleFs (sampleReq false false)).2 = .refused := by decide

example : (save [nm "/trees"] [] {} sampleFs ⟨nm "/trees", nm "x/./y//b.yaml", "new", false, false⟩).2 = .saved [nm "trees", nm "x", nm "y", nm "b.yaml"] := by
  decide

/-- The code violates C68: `..` and absolute paths lead out of the storage folder, and with overwriting allowed any file can be replaced. -/
theorem c68_escape :
    (save [nm "/trees"] [] {} sampleFs ⟨nm "/trees", nm "../home/secret.yaml", "new", true, false⟩).2 = .saved [nm "home", nm "secret.yaml"] ∧
    (save [nm "/trees"] [] {} sampleFs ⟨nm "/trees", nm "/home/x.yaml", "new", false, false⟩).2 = .saved [nm "home", nm "x.yaml"] := by decide

/-- The code violates C69: the file is opened for writing first. If writing breaks off, the answer is a failure and the old content is gone. -/
theorem c69_truncated :
    (save [nm "/trees"] [] { broken := some "" } sampleFs (sampleReq true false)).2 = .refused ∧
    (save [nm "/trees"] [] { broken := some "" } sampleFs (sampleReq true false)).1.at [nm "trees", nm "a.yaml"] = some (.file "") := by decide

end Verif.Files
