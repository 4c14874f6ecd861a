import Verif.Model.Cli
/-
A run of the command line which is killed on the way: the states which the files can be in.
-/
set_option autoImplicit false
namespace Spex

section
variable [Uni]

/-- the files and the HTML file with which the second stage is begun (parse.py:24-42) -/
inductive SecondStage (t : Tools) (o : Opts) (w : Files) (s : FPath) : Files → FPath → Prop
  | html : suffix s.name ≠ c!".docx" → SecondStage t o w s w s
  | docx {h c : Str} : suffix s.name = c!".docx" → convertWord t w s = .ok (h, c) →
      SecondStage t o w s ((w.set ⟨o.out, baseName s.name ++ c!".html"⟩ h).set ⟨o.out, baseName s.name ++ c!".css"⟩ c)
        ⟨o.out, baseName s.name ++ c!".html"⟩

/-- The files at some moment of parse_spec (parse.py:24-80). The HTML and CSS files are truncated one after the other when the renderer is
made and written when it is destroyed (htmlrenderer.py:39-47, 264-270): here they may hold anything until the first stage is over. The
JSON file is truncated when the writer is made (writer.py:76), and written piece by piece when it is left (writer.py:101-105): it holds
some first part of its final text. A text cut within the bytes of a character cannot be decoded and is not modelled. -/
inductive Midway (t : Tools) (o : Opts) (w : Files) (s : FPath) : Files → Prop
  | start : Midway t o w s w
  | page {x : Str} : suffix s.name = c!".docx" → Midway t o w s (w.set ⟨o.out, baseName s.name ++ c!".html"⟩ x)
  | style {x y : Str} : suffix s.name = c!".docx" →
      Midway t o w s ((w.set ⟨o.out, baseName s.name ++ c!".html"⟩ x).set ⟨o.out, baseName s.name ++ c!".css"⟩ y)
  | model {w1 : Files} {src : FPath} {part text : Str} : SecondStage t o w s w1 src →
      (runJson t o w1 src).1 ⟨o.out, baseName src.name ++ c!".json"⟩ = some text → part <+: text →
      Midway t o w s (w1.set ⟨o.out, baseName src.name ++ c!".json"⟩ part)

/-- The files at some moment of the loop of main (__main__.py:131-157). -/
inductive Killed (t : Tools) (o : Opts) : Files → List FPath → Files → Prop
  | before {w : Files} {ss : List FPath} : Killed t o w ss w
  | within {w w' : Files} {s : FPath} {ss : List FPath} : suffix s.name ≠ c!".json" → [c!".html", c!".docx"].contains (suffix s.name) = true →
      Midway t o w s w' → Killed t o w (s :: ss) w'
  | next {w w1 w' : Files} {s dst : FPath} {ss : List FPath} : suffix s.name ≠ c!".json" →
      [c!".html", c!".docx"].contains (suffix s.name) = true → runSpec t o w s = (w1, .ok dst) →
      (o.validate && !validateJson w1 dst) = false → Killed t o w1 ss w' → Killed t o w (s :: ss) w'

end
end Spex
