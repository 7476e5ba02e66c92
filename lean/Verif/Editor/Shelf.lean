import Verif.Editor.Template
/-
Model of the list of section templates in the diagram editor: the dialog where templates are added,
renamed and deleted (edit-templates-dialog.tsx), and how the editor changes to a template and back
(diagram-editor.tsx:155-192 and 731-752). Sources under /repo/diagram-editor/frontend.

Simplified:
* How a template is turned into what is drawn and back is `Kit`; Editor/Template.lean has the functions.
  Both can throw an error, and then nothing changes.
* Objects are lists in the order of their keys, which is the order of assignment. JavaScript puts keys
  that are written as numbers first, and an assignment to the key `__proto__` adds none; the model
  ignores both.
* A button that is not shown does nothing. While a template is edited the dialog and the loading of files
  are not offered, command-panel.tsx:43-73.
* React applies the changes of one click at once.
-/
namespace Verif.Editor

/-- What the list of templates does not look into: `loadTemplate` with `autoLayout`
(diagram-editor.tsx:169-170), `exportTemplate` (736-740), the template that is added
(edit-templates-dialog.tsx:192-197), and the templates that sections in a drawing name
(`op.template`, forms/section-form.tsx:190-202). -/
structure Kit (T D : Type) where
  opens : T → Option D
  closes : D → Option T
  blank : T
  sections : D → List Name

/-- The states of `TemplatesProvider` (templates-provider.tsx:18-20), of the dialog
(edit-templates-dialog.tsx:40-41, `target` is `renaming?.target`) and of the editor (diagram-editor.tsx:139-150). -/
structure Shelf (T D : Type) where
  templates : List (Name × T)
  target : Option Name
  newId : Name
  shown : D
  saved : D
  mode : Option Name
  deriving DecidableEq, Repr

/-- Assignment to a key of an object. -/
def put {T : Type} (l : List (Name × T)) (n : Name) (t : T) : List (Name × T) :=
  match l with
  | [] => [(n, t)]
  | p :: l => if p.1 = n then (n, t) :: l else p :: put l n t

/-- The loop of `handleSubmitRenaming`, edit-templates-dialog.tsx:58-66, with what is built so far. -/
def relabel {T : Type} (target newId : Name) (acc : List (Name × T)) :
    List (Name × T) → List (Name × T)
  | [] => acc
  | p :: l => relabel target newId (put acc (if p.1 = target then newId else p.1) p.2) l

/-- The loop for the name of a new template, edit-templates-dialog.tsx:181-186. It has no bound; that
this many numbers are enough is proved (`newName_spec`). -/
def newName (taken : List Name) : Option Name :=
  if taken.contains "new_template" then tryNumbers "new_template" "_" taken taken.length 1
  else some "new_template"

/-- What a user does. -/
inductive Act (T D : Type) where
  | add
  | startRename (id : Name)
  | type_ (x : Name)
  | submit
  | delete (id : Name)
  | edit (id : Name)
  | draw (d : D)
  | save
  | load (l : List (Name × T)) (d : D)

variable {T D : Type}

def Shelf.keys (s : Shelf T D) : List Name := s.templates.map (·.1)

/-- Whether the dialog shows the field for the new name, edit-templates-dialog.tsx:93 and 113. -/
def Shelf.field? (s : Shelf T D) : Option Name :=
  match s.mode, s.target with
  | none, some id => if s.keys.contains id then some id else none
  | _, _ => none

/-- One step; the lines are of edit-templates-dialog.tsx or, from `edit` on, of diagram-editor.tsx. -/
def Shelf.step (k : Kit T D) (s : Shelf T D) : Act T D → Shelf T D
  -- 179-206
  | .add =>
    if s.mode.isSome then s else
    match newName s.keys with
    | some n => { s with newId := n, templates := put s.templates n k.blank, target := some n }
    | none => s
  -- 120-123
  | .startRename id =>
    if s.mode.isNone && s.keys.contains id then { s with target := some id, newId := id } else s
  -- 100-102
  | .type_ x =>
    match s.field? with
    | some _ => { s with newId := x }
    | none => s
  -- 57-70
  | .submit =>
    match s.field? with
    | some id =>
      { s with templates := relabel id s.newId [] s.templates, target := none, newId := "" }
    | none => s
  -- 149-155
  | .delete id =>
    if s.mode.isNone then { s with templates := s.templates.filter fun p => p.1 != id } else s
  -- 133-138 and 164-181
  | .edit id =>
    if s.mode.isSome then s else
    match s.templates.find? (fun p => p.1 == id) with
    | some p =>
      match k.opens p.2 with
      | some d => { s with saved := s.shown, shown := d, mode := some id }
      | none => s
    | none => s
  -- any change of what is drawn
  | .draw d => { s with shown := d }
  -- 735-748 and 158-162
  | .save =>
    match s.mode with
    | some id =>
      match k.closes s.shown with
      | some t => { s with templates := put s.templates id t, shown := s.saved, mode := none }
      | none => s
    | none => s
  -- 502-513
  | .load l d => if s.mode.isNone then { s with templates := l, shown := d } else s

/-- Several steps. -/
def Shelf.run (k : Kit T D) (s : Shelf T D) (l : List (Act T D)) : Shelf T D := l.foldl (Shelf.step k) s

end Verif.Editor
