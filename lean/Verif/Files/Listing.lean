import Verif.Files.Save

/-! C70: the listings of folders and packages (`PackageManager.path_to_dict`, `package_manager.py`). -/

set_option autoImplicit false

namespace Verif.Files

/-! ### The model -/

/-- A part of the file system; `sealed` is a directory that cannot be read. -/
inductive Tree
  | file (n : Name)
  | dir (n : Name) (children : List Tree)
  | sealed (n : Name)

/-- The name of a file or directory. -/
def Tree.name : Tree → Name
  | .file n => n
  | .dir n _ => n
  | .sealed n => n

/-- package_manager.py 296-313: a dictionary of the listing. A file has no entry `children`. -/
inductive Item
  | mk (name : Name) (id parent : Nat) (type : String) (children : List Item)

/-- package_manager.py 307: is the file shown? -/
def visible (showHidden : Bool) (t : Tree) : Bool := showHidden || !(t.name.head? = some '.')

mutual

/-- package_manager.py 294-314: `path_to_dict`; the counter is `item_id`. -/
def pathToDict (showHidden : Bool) : Tree → Nat → Nat → Item × Nat
  | .file n, parent, counter => (.mk n (counter + 1) parent "file" [], counter + 1)
  | .sealed n, parent, counter => (.mk n (counter + 1) parent "readonly_directory" [], counter + 1)
  | .dir n ts, parent, counter =>
    match pathsToDicts showHidden ts (counter + 1) (counter + 1) with
    | (l, c) => (.mk n (counter + 1) parent "directory" l, c)

/-- package_manager.py 300-308: the list comprehension. -/
def pathsToDicts (showHidden : Bool) : List Tree → Nat → Nat → List Item × Nat
  | [], _, counter => ([], counter)
  | t :: ts, parent, counter =>
    if visible showHidden t then
      match pathToDict showHidden t parent counter with
      | (i, c) =>
        match pathsToDicts showHidden ts parent c with
        | (l, c) => (i :: l, c)
    else pathsToDicts showHidden ts parent counter
end

/-- package_manager.py 360-364: a listing begins with a new counter. -/
def listing (showHidden : Bool) (t : Tree) : Item := (pathToDict showHidden t 0 0).1

/-! ### What a listing means -/

mutual

/-- The ids in a listing, from the outside in. -/
def Item.ids : Item → List Nat
  | .mk _ id _ _ children => id :: allIds children

/-- Those of several. -/
def allIds : List Item → List Nat
  | [] => []
  | i :: l => i.ids ++ allIds l
end

mutual

/-- Every item names the one that contains it as its parent. -/
def Item.linked (outer : Nat) : Item → Prop
  | .mk _ id parent _ children => parent = outer ∧ allLinked id children

/-- So do several. -/
def allLinked (outer : Nat) : List Item → Prop
  | [] => True
  | i :: l => i.linked outer ∧ allLinked outer l
end

mutual

/-- The files a listing speaks about. -/
def Item.tree : Item → Tree
  | .mk n _ _ type children => if type = "file" then .file n else if type = "directory" then .dir n (trees children) else .sealed n

/-- Those of several. -/
def trees : List Item → List Tree
  | [] => []
  | i :: l => i.tree :: trees l
end

mutual

/-- The files that a user wants to see: without hidden files and all that is below hidden directories. -/
def Tree.shown (showHidden : Bool) : Tree → Tree
  | .file n => .file n
  | .sealed n => .sealed n
  | .dir n ts => .dir n (allShown showHidden ts)

/-- Those of several. -/
def allShown (showHidden : Bool) : List Tree → List Tree
  | [] => []
  | t :: ts =>
    if showHidden = false ∧ t.name.head? = some '.' then allShown showHidden ts
    else t.shown showHidden :: allShown showHidden ts
end

/-! ### C70 -/

theorem visible_iff (b : Bool) (t : Tree) : visible b t = true ↔ ¬(b = false ∧ t.name.head? = some '.') := by
  cases b <;> simp [visible]

mutual

theorem pathToDict_ok (b : Bool) (t : Tree) (parent c : Nat) :
    c < (pathToDict b t parent c).2 ∧ (pathToDict b t parent c).1.ids = List.range' (c + 1) ((pathToDict b t parent c).2 - c) ∧
    (pathToDict b t parent c).1.linked parent ∧ (pathToDict b t parent c).1.tree = t.shown b := by
  match t with
  | .file n => exact ⟨by simp [pathToDict], by simp [pathToDict, Item.ids, allIds], by simp [pathToDict, Item.linked, allLinked],
      by simp [pathToDict, Item.tree, Tree.shown]⟩
  | .sealed n => exact ⟨by simp [pathToDict], by simp [pathToDict, Item.ids, allIds], by simp [pathToDict, Item.linked, allLinked],
      by simp [pathToDict, Item.tree, Tree.shown]⟩
  | .dir n ts =>
    obtain ⟨h1, h2, h3, h4⟩ := pathsToDicts_ok b ts (c + 1) (c + 1)
    simp only [pathToDict]
    refine ⟨by omega, ?_, ?_, ?_⟩
    · simp only [Item.ids, h2]
      have : (pathsToDicts b ts (c + 1) (c + 1)).2 - c = ((pathsToDicts b ts (c + 1) (c + 1)).2 - (c + 1)) + 1 := by omega
      rw [this, List.range'_succ]
    · simp only [Item.linked, true_and]; exact h3
    · simp [Item.tree, Tree.shown, h4]

theorem pathsToDicts_ok (b : Bool) (ts : List Tree) (parent c : Nat) :
    c ≤ (pathsToDicts b ts parent c).2 ∧ allIds (pathsToDicts b ts parent c).1 = List.range' (c + 1) ((pathsToDicts b ts parent c).2 - c) ∧
    allLinked parent (pathsToDicts b ts parent c).1 ∧ trees (pathsToDicts b ts parent c).1 = allShown b ts := by
  match ts with
  | [] => exact ⟨by simp [pathsToDicts], by simp [pathsToDicts, allIds], by simp [pathsToDicts, allLinked], by simp [pathsToDicts, trees, allShown]⟩
  | t :: ts =>
    simp only [pathsToDicts]
    by_cases hv : visible b t = true
    · rw [if_pos hv]
      obtain ⟨h1, h2, h3, h4⟩ := pathToDict_ok b t parent c
      obtain ⟨g1, g2, g3, g4⟩ := pathsToDicts_ok b ts parent (pathToDict b t parent c).2
      dsimp only
      refine ⟨by omega, ?_, ?_, ?_⟩
      · simp only [allIds, h2, g2]
        have e : (pathToDict b t parent c).2 + 1 = c + 1 + ((pathToDict b t parent c).2 - c) := by omega
        rw [e, List.range'_append_1]
        congr 1
        omega
      · simp only [allLinked]; exact ⟨h3, g3⟩
      · simp only [trees, allShown, if_neg ((visible_iff b t).mp hv), h4, g4]
    · rw [if_neg hv]
      obtain ⟨g1, g2, g3, g4⟩ := pathsToDicts_ok b ts parent c
      exact ⟨g1, g2, g3, by rw [g4]; simp only [allShown, if_pos (Decidable.of_not_not (fun h => hv ((visible_iff b t).mpr h)))]⟩

end

/-- C70: the ids of a listing are 1, 2, 3, … from the outside in, hence all different. -/
theorem c70_ids (b : Bool) (t : Tree) : (listing b t).ids = List.range' 1 (listing b t).ids.length ∧ (listing b t).ids.Nodup := by
  obtain ⟨_, h, _, _⟩ := pathToDict_ok b t 0 0
  unfold listing
  rw [h]
  exact ⟨by simp, List.nodup_range'⟩

/-- C70: every item names the one that contains it as its parent, the outermost one names 0. -/
theorem c70_parents (b : Bool) (t : Tree) : (listing b t).linked 0 := (pathToDict_ok b t 0 0).2.2.1

/-- C70: the listing shows the files as they are, except for hidden ones unless they are asked for. -/
theorem c70_files (b : Bool) (t : Tree) : (listing b t).tree = t.shown b := (pathToDict_ok b t 0 0).2.2.2

/-- A folder with a hidden file and a folder that cannot be read. -/
def sampleTree : Tree := .dir (nm "trees") [.file (nm ".git"), .dir (nm "x") [.file (nm "a"), .file (nm "b")], .sealed (nm "y"), .file (nm "c")]

example : (listing false sampleTree).ids = [1, 2, 3, 4, 5, 6] := by decide

example : (listing true sampleTree).ids = [1, 2, 3, 4, 5, 6, 7] := by decide

end Verif.Files
