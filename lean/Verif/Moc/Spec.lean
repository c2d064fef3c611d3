import Verif.Moc.Model

/-! What a user expects of the meta-object compiler, without looking at scanner or rules. -/
namespace Verif.Moc

/-- A file that asks for `moc`: by a macro, or by the tag that is documented for this. -/
def WantsMoc (f : File) : Prop := f.content.qmacro = true ∨ sMocable ∈ f.tags

/-- The file includes the code generated for the header with this base name. -/
def IncludesMoc (f : File) (b : Str) : Prop :=
  ∃ p ∈ f.content.includes, ∃ dir, (dir = [] ∨ ∃ d, dir = d ++ ['/']) ∧
    p = dir ++ (['m','o','c','_'] ++ b ++ ['.','c','p','p']) ∧ '/' ∉ b

/-- A file whose code becomes part of the program. -/
def SourceFile (f : File) : Prop :=
  ∃ t ∈ f.tags, t = sCpp ∨ t = sCppCombine ∨ t = sCppm ∨ t = sObjcpp ∨ t = sObjcppCombine

/-- An output that is compiled: directly, or together with the other generated code. -/
def Out.Compiled (o : Out) : Prop := sCpp ∈ o.tags ∨ sMocCpp ∈ o.tags

/-- An output that can be included. -/
def Out.Includable (o : Out) : Prop := sHpp ∈ o.tags

/-- What is expected for a header in a product that consists of the given files: code is generated
if the header asks for it, and it is compiled unless a source file includes it. -/
def HeaderRight (files : List File) (f : File) (outs : List Out) : Prop :=
  ((∃ o ∈ outs, o.name = ['m','o','c','_'] ++ f.base ++ ['.','c','p','p']) ↔ WantsMoc f) ∧
  ∀ o ∈ outs, o.name = ['m','o','c','_'] ++ f.base ++ ['.','c','p','p'] →
    (o.Compiled ↔ ¬ ∃ s ∈ files, SourceFile s ∧ IncludesMoc s f.base) ∧
    (o.Includable ↔ ∃ s ∈ files, SourceFile s ∧ IncludesMoc s f.base)

/-- What is expected for a source file: a file to include at its end. -/
def SourceRight (f : File) (outs : List Out) : Prop :=
  ((∃ o ∈ outs, o.name = f.base ++ ['.','m','o','c']) ↔ WantsMoc f) ∧
  ∀ o ∈ outs, ¬ o.Compiled ∧ (o.name = f.base ++ ['.','m','o','c'] → o.Includable)

/-- The usual tags: no commas, and no tag that merely looks like one of those the scanner knows. -/
def PlainTags (f : File) : Prop :=
  ∀ t ∈ f.tags, ',' ∉ t ∧
    (t = sCppCombine ∨ t = sObjcppCombine ∨ ¬ sCppCombine <:+: t) ∧
    (t = sMocable ∨ t = sUnmocable ∨ ¬ sMocable <:+: t) ∧
    (t = sHpp ∨ ¬ sHpp <:+: t)

/-- Source files that include generated code are tagged as plain C++ or Objective-C++ files and are
not kept away from `moc`. -/
def Covered (f : File) : Prop :=
  SourceFile f → (∃ b, IncludesMoc f b) → (sCpp ∈ f.tags ∨ sObjcpp ∈ f.tags) ∧ sUnmocable ∉ f.tags

/-- The files of a product. -/
def files (es : List Entry) : List File := es.map (·.file)

/-- Setting up a product before the first build. -/
def Event.Setup : Event → Prop
  | .add _ | .edit _ _ | .retag _ _ | .remove _ => True
  | _ => False

/-- What may happen afterwards: builds, new files, removed files, and all changes of files that do not
change which generated code they include. -/
def Event.Harmless (es : List Entry) : Event → Prop
  | .add f => PlainTags f ∧ Covered f
  | .edit i c => ∀ e, es[i]? = some e → SourceFile e.file →
      ∀ b, IncludesMoc { e.file with content := c } b ↔ IncludesMoc e.file b
  | .retag _ _ => False
  | .remove _ | .scan _ | .apply _ => True

/-- A history of such events. -/
def Harmless (cfg : Cfg) : List Entry → List Event → Prop
  | _, [] => True
  | es, ev :: evs => ev.Harmless es ∧ Harmless cfg (step cfg es ev) evs

end Verif.Moc
