import Verif.Files.Listing

/-! C114: listings that are made at the same time. The services of the `PackageManager` are in a
`ReentrantCallbackGroup` (`tree_node.py` 231-262) and run by three threads (`tree_node.py` 518), but share one counter
without a lock. -/

set_option autoImplicit false

namespace Verif.Files.Overlap

open Verif.Files

/-! ### The model -/

/-- What another request does to the counter: package_manager.py 291-292 (`reset_id`) and 287-289 (`get_id`). -/
inductive Act
  | reset
  | get
  deriving DecidableEq

/-- The counter after some of them. Simplified: `get_id` is one step. -/
def after : List Act → Nat → Nat
  | [], c => c
  | .reset :: l, _ => after l 0
  | .get :: l, c => after l (c + 1)

/-- `get_id` (package_manager.py 287-289) of this request, if `others i` is done between its `i`-th `get_id` and what came before it.
The state is the number of ids taken and the counter. -/
def take (others : Nat → List Act) (s : Nat × Nat) : Nat × Nat := (s.1 + 1, after (others s.1) s.2 + 1)

mutual

/-- package_manager.py 294-314: `path_to_dict`, with other requests in between. -/
def pathToDict (others : Nat → List Act) (showHidden : Bool) : Tree → Nat → Nat × Nat → Item × (Nat × Nat)
  | .file n, parent, s => (.mk n (take others s).2 parent "file" [], take others s)
  | .sealed n, parent, s => (.mk n (take others s).2 parent "readonly_directory" [], take others s)
  | .dir n ts, parent, s =>
    match pathsToDicts others showHidden ts (take others s).2 (take others s) with
    | (l, s') => (.mk n (take others s).2 parent "directory" l, s')

/-- package_manager.py 300-308: the list comprehension. -/
def pathsToDicts (others : Nat → List Act) (showHidden : Bool) : List Tree → Nat → Nat × Nat → List Item × (Nat × Nat)
  | [], _, s => ([], s)
  | t :: ts, parent, s =>
    if visible showHidden t then
      match pathToDict others showHidden t parent s with
      | (i, s) =>
        match pathsToDicts others showHidden ts parent s with
        | (l, s) => (i :: l, s)
    else pathsToDicts others showHidden ts parent s
end

/-- package_manager.py 360-364, 329-332: a listing, with other requests in between. -/
def listing (others : Nat → List Act) (showHidden : Bool) (t : Tree) : Item := (pathToDict others showHidden t 0 (0, 0)).1

/-! ### C114 -/

mutual

theorem files_ok (o : Nat → List Act) (b : Bool) (t : Tree) (parent : Nat) (s : Nat × Nat) :
    (pathToDict o b t parent s).1.linked parent ∧ (pathToDict o b t parent s).1.tree = t.shown b := by
  match t with
  | .file n => exact ⟨by simp [pathToDict, Item.linked, allLinked], by simp [pathToDict, Item.tree, Tree.shown]⟩
  | .sealed n => exact ⟨by simp [pathToDict, Item.linked, allLinked], by simp [pathToDict, Item.tree, Tree.shown]⟩
  | .dir n ts =>
    obtain ⟨h1, h2⟩ := all_files_ok o b ts (take o s).2 (take o s)
    simp only [pathToDict]
    exact ⟨by simp only [Item.linked, true_and]; exact h1, by simp [Item.tree, Tree.shown, h2]⟩

theorem all_files_ok (o : Nat → List Act) (b : Bool) (ts : List Tree) (parent : Nat) (s : Nat × Nat) :
    allLinked parent (pathsToDicts o b ts parent s).1 ∧ trees (pathsToDicts o b ts parent s).1 = allShown b ts := by
  match ts with
  | [] => exact ⟨by simp [pathsToDicts, allLinked], by simp [pathsToDicts, trees, allShown]⟩
  | t :: ts =>
    simp only [pathsToDicts]
    by_cases hv : visible b t = true
    · rw [if_pos hv]
      obtain ⟨h1, h2⟩ := files_ok o b t parent s
      obtain ⟨g1, g2⟩ := all_files_ok o b ts parent (pathToDict o b t parent s).2
      dsimp only
      exact ⟨by simp only [allLinked]; exact ⟨h1, g1⟩,
        by simp only [trees, allShown, if_neg ((visible_iff b t).mp hv), h2, g2]⟩
    · rw [if_neg hv]
      obtain ⟨g1, g2⟩ := all_files_ok o b ts parent s
      exact ⟨g1, by rw [g2]; simp only [allShown, if_pos (Decidable.of_not_not (fun h => hv ((visible_iff b t).mpr h)))]⟩

end

theorem after_ge (l : List Act) (h : Act.reset ∉ l) : ∀ c, c ≤ after l c := by
  induction l with
  | nil => intro c; exact Nat.le_refl _
  | cons a l ih =>
    intro c
    cases a with
    | reset => simp at h
    | get => exact Nat.le_trans (Nat.le_succ c) (ih (by simpa using h) _)

/-- The ids are increasing and lie above the counter before and not above the counter after. -/
def Between (c : Nat) (l : List Nat) (c' : Nat) : Prop := c ≤ c' ∧ l.Pairwise (· < ·) ∧ ∀ i ∈ l, c < i ∧ i ≤ c'

theorem between_append {a b c : Nat} {l m : List Nat} (h : Between a l b) (h' : Between b m c) : Between a (l ++ m) c := by
  refine ⟨Nat.le_trans h.1 h'.1, List.pairwise_append.2 ⟨h.2.1, h'.2.1, ?_⟩, ?_⟩
  · intro x hx y hy
    have := h.2.2 x hx
    have := h'.2.2 y hy
    omega
  · have := h.1
    have := h'.1
    intro i hi
    rcases List.mem_append.1 hi with hi | hi
    · have := h.2.2 i hi; omega
    · have := h'.2.2 i hi; omega

theorem take_lt (o : Nat → List Act) (h : ∀ i, Act.reset ∉ o i) (s : Nat × Nat) : s.2 < (take o s).2 :=
  Nat.lt_succ_of_le (after_ge _ (h _) _)

theorem between_take (o : Nat → List Act) (h : ∀ i, Act.reset ∉ o i) (s : Nat × Nat) :
    Between s.2 [(take o s).2] (take o s).2 := by
  have := take_lt o h s
  refine ⟨by omega, by simp, ?_⟩
  intro i hi
  rw [List.mem_singleton.1 hi]
  omega

mutual

theorem ids_ok (o : Nat → List Act) (h : ∀ i, Act.reset ∉ o i) (b : Bool) (t : Tree) (parent : Nat) (s : Nat × Nat) :
    Between s.2 (pathToDict o b t parent s).1.ids (pathToDict o b t parent s).2.2 := by
  match t with
  | .file n => simp only [pathToDict, Item.ids, allIds]; exact between_take o h s
  | .sealed n => simp only [pathToDict, Item.ids, allIds]; exact between_take o h s
  | .dir n ts =>
    simp only [pathToDict, Item.ids]
    exact between_append (between_take o h s) (all_ids_ok o h b ts _ (take o s))

theorem all_ids_ok (o : Nat → List Act) (h : ∀ i, Act.reset ∉ o i) (b : Bool) (ts : List Tree) (parent : Nat) (s : Nat × Nat) :
    Between s.2 (allIds (pathsToDicts o b ts parent s).1) (pathsToDicts o b ts parent s).2.2 := by
  match ts with
  | [] => simp only [pathsToDicts, allIds]; exact ⟨Nat.le_refl _, by simp, by simp⟩
  | t :: ts =>
    simp only [pathsToDicts]
    by_cases hv : visible b t = true
    · rw [if_pos hv]
      dsimp only
      simp only [allIds]
      exact between_append (ids_ok o h b t parent s) (all_ids_ok o h b ts parent _)
    · rw [if_neg hv]
      exact all_ids_ok o h b ts parent s

end

mutual

theorem alone_one (b : Bool) (t : Tree) (parent : Nat) (s : Nat × Nat) :
    (pathToDict (fun _ => []) b t parent s).1 = (Files.pathToDict b t parent s.2).1 ∧
    (pathToDict (fun _ => []) b t parent s).2.2 = (Files.pathToDict b t parent s.2).2 := by
  match t with
  | .file n => simp [pathToDict, Files.pathToDict, take, after]
  | .sealed n => simp [pathToDict, Files.pathToDict, take, after]
  | .dir n ts =>
    obtain ⟨h1, h2⟩ := alone_all b ts (s.2 + 1) (s.1 + 1, s.2 + 1)
    simp only [pathToDict, Files.pathToDict, take, after]
    exact ⟨by rw [h1], h2⟩

theorem alone_all (b : Bool) (ts : List Tree) (parent : Nat) (s : Nat × Nat) :
    (pathsToDicts (fun _ => []) b ts parent s).1 = (Files.pathsToDicts b ts parent s.2).1 ∧
    (pathsToDicts (fun _ => []) b ts parent s).2.2 = (Files.pathsToDicts b ts parent s.2).2 := by
  match ts with
  | [] => simp [pathsToDicts, Files.pathsToDicts]
  | t :: ts =>
    simp only [pathsToDicts, Files.pathsToDicts]
    by_cases hv : visible b t = true
    · obtain ⟨h1, h2⟩ := alone_one b t parent s
      obtain ⟨g1, g2⟩ := alone_all b ts parent (pathToDict (fun _ => []) b t parent s).2
      simp only [if_pos hv]
      rw [h2] at g1 g2
      exact ⟨by rw [h1, g1], g2⟩
    · simp only [if_neg hv]
      exact alone_all b ts parent s

end

/-- Without other requests this is the listing of C70. -/
theorem c114_alone (b : Bool) (t : Tree) : listing (fun _ => []) b t = Files.listing b t := (alone_one b t 0 (0, 0)).1

/-- **C114.** Whatever other requests do meanwhile, a listing shows the files as they are and every item has the id of the item
that contains it as its parent. -/
theorem c114_files (others : Nat → List Act) (b : Bool) (t : Tree) :
    (listing others b t).tree = t.shown b ∧ (listing others b t).linked 0 :=
  (files_ok others b t 0 (0, 0)).symm

/-- **C114 (partial).** As long as no other listing begins meanwhile, the ids of a listing are all different, though not
consecutive. Missing for the full statement: `c114_overlap`. -/
theorem c114_ids_partial (others : Nat → List Act) (h : ∀ i, Act.reset ∉ others i) (b : Bool) (t : Tree) :
    (listing others b t).ids.Pairwise (· < ·) ∧ (listing others b t).ids.Nodup := by
  have := (ids_ok others h b t 0 (0, 0)).2.1
  exact ⟨this, this.imp (fun h => Nat.ne_of_lt h)⟩

example : (listing (fun i => if i = 1 then [.get, .get] else if i = 3 then [.get] else []) false sampleTree).ids =
    [1, 4, 5, 7, 8, 9] := by decide

/-- **The code violates C114**: if a listing begins while another one is made, items of the latter get the same id, and it is not
known any more which of them is meant as a parent. Here the folders `x` and `y` both have the id 2, so that the file `a` with the
parent 2 could be in either. -/
theorem c114_overlap :
    ∃ (t : Tree) (others : Nat → List Act) (i j k : Item),
      listing others false t = .mk (nm "trees") 1 0 "directory" [i, j] ∧
      i = .mk (nm "x") 2 1 "directory" [k] ∧ j = .mk (nm "y") 2 1 "readonly_directory" [] ∧
      k = .mk (nm "a") 3 2 "file" [] ∧
      (∀ n, others n = if n = 3 then [.reset, .get] else []) :=
  ⟨.dir (nm "trees") [.dir (nm "x") [.file (nm "a")], .sealed (nm "y")], fun n => if n = 3 then [.reset, .get] else [],
    _, _, _, rfl, rfl, rfl, rfl, fun _ => rfl⟩

end Verif.Files.Overlap
