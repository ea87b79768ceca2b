import Mathlib.Data.List.Basic
import Mathlib.Order.Basic

/-!
# Specification: files and directories

Nothing here refers to the model of the code. The name `..`, links and permissions are left out.
-/

namespace QMix.Spec

/-- A name of a file or directory. -/
abbrev Name := List Char

/-- A text cut at every slash. -/
def cut : List Char → List Name
  | [] => [[]]
  | c :: cs =>
    if c = '/' then [] :: cut cs
    else match cut cs with
      | [] => [[c]]
      | w :: ws => (c :: w) :: ws

/-- The names along a path; `.` is the directory itself. -/
def parts (p : List Char) : List Name := (cut p).filter fun w => w ≠ [] ∧ w ≠ ['.']

/-- The place that a path stands for, as the names from the root; `cwd` is the working directory. -/
def place (cwd : List Name) (p : List Char) : List Name :=
  if p.head? = some '/' then parts p else cwd ++ parts p

/-- What is on a disk: the directories, and the content of every file. -/
structure Disk (α : Type) where
  dir : List Name → Prop
  file : List Name → Option α

/-- Directories and files are in directories, and nothing is both. -/
structure Disk.Ok {α : Type} (s : Disk α) : Prop where
  root : s.dir []
  up : ∀ l n, s.dir (l ++ [n]) → s.dir l
  fileUp : ∀ l n, s.file (l ++ [n]) ≠ none → s.dir l
  apart : ∀ l, s.dir l → s.file l = none

/-- Nothing on the way to a place is a file. -/
def Disk.Free {α : Type} (s : Disk α) (l : List Name) : Prop := ∀ l', l' <+: l → s.file l' = none

end QMix.Spec
