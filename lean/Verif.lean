import Verif.SetT.Props
import Verif.Version.Props
import Verif.FileTime.Props
import Verif.JobLimits.Props
import Verif.Eval.Witness
import Verif.Exec.Props
import Verif.Exec.Witness
import Verif.Launcher.Props
import Verif.Session.Props
import Verif.Shell.Props
import Verif.Path.Props
import Verif.Graph.Props
import Verif.Graph.Roots
import Verif.Persist.Props
import Verif.Persist.Crash
import Verif.Saver.Props
import Verif.UpToDate.Props
import Verif.Ids.Props
import Verif.Arch.Props
import Verif.Multiplex.Props
import Verif.Profile.Props
import Verif.Settings.Props
import Verif.Job.Props
import Verif.Progress.Props
import Verif.Dirs.Locker
import Verif.Dirs.Empty
import Verif.Track.Witness
import Verif.Track.Merge
import Verif.Scan.Props
import Verif.Edit.Props
import Verif.Literal.Props
import Verif.Merge.Props
import Verif.Clean.Props
import Verif.Install.Props
import Verif.Rescue.Props
import Verif.Subset.Props
import Verif.RuleGraph.Props
import Verif.Reapply.Witness
import Verif.Includes.Witness
import Verif.Sched.Witness
import Verif.Sched.Locks
import Verif.Stale.Witness
import Verif.Wild.Witness
import Verif.Anew.Witness
import Verif.Cpp.Witness
import Verif.Files.Witness
import Verif.Deps.Variants
import Verif.Choose.Witness
import Verif.Present.Witness
import Verif.Params.Witness
import Verif.Pc.Witness
import Verif.Pc.PackWitness
import Verif.Proc.Witness
import Verif.Command.Witness
import Verif.Toolchain.Witness
import Verif.Override.Witness
import Verif.Cli.Witness
import Verif.Api.Witness
import Verif.EnvSetup.Witness
import Verif.Updater.Witness
import Verif.Read.Witness
import Verif.Imports.Witness
import Verif.Tags.Witness
import Verif.Provider.Witness
import Verif.Front.Witness
import Verif.Makefile.Witness
import Verif.Link.Witness
import Verif.Create.Witness
import Verif.Config.Witness
import Verif.Touch.Witness
import Verif.Lexer.Witness
import Verif.Lsp.Props
import Verif.Lsp.Witness
import Verif.Status.Props
import Verif.Status.Witness
import Verif.SettingsTree.Props
import Verif.SettingsTree.Witness
import Verif.Moc.Model
import Verif.Moc.Spec
import Verif.Moc.Lem
import Verif.Moc.Lem2
import Verif.Moc.Lem3
import Verif.Moc.Props
import Verif.Moc.Witness
import Verif.Decl.Model
import Verif.Decl.Spec
import Verif.Decl.Lem
import Verif.Decl.Lem2
import Verif.Decl.Lem3
import Verif.Decl.Props
import Verif.Decl.Witness
import Verif.TextF.Model
import Verif.TextF.Spec
import Verif.TextF.Lem
import Verif.TextF.Lem2
import Verif.TextF.Lem3
import Verif.TextF.Props
import Verif.TextF.Witness
import Verif.Exported.Model
import Verif.Exported.Spec
import Verif.Exported.Lem
import Verif.Exported.Lem2
import Verif.Exported.Props
import Verif.Exported.Witness
import Verif.JsImport.Model
import Verif.JsImport.Spec
import Verif.JsImport.Lem
import Verif.JsImport.Props
import Verif.JsImport.Witness
import Verif.PcExport.Model
import Verif.PcExport.Spec
import Verif.PcExport.Lem
import Verif.PcExport.Flags
import Verif.PcExport.Props
import Verif.PcExport.Witness
import Verif.CString.Model
import Verif.CString.Spec
import Verif.CString.Lem
import Verif.CString.Props
import Verif.CString.Witness
import Verif.Template.Model
import Verif.Template.Spec
import Verif.Template.Lem
import Verif.Template.Props
import Verif.Template.Witness
import Verif.Desktop.Model
import Verif.Desktop.Spec
import Verif.Desktop.Lem
import Verif.Desktop.Inv
import Verif.Desktop.Out
import Verif.Desktop.Props
import Verif.Desktop.Witness
import Verif.PathProbe.Model
import Verif.PathProbe.Spec
import Verif.PathProbe.Lem
import Verif.PathProbe.Props
import Verif.PathProbe.Witness
import Verif.CMakeExport.Model
import Verif.CMakeExport.Reader
import Verif.CMakeExport.Spec
import Verif.CMakeExport.Scan
import Verif.CMakeExport.File
import Verif.CMakeExport.Eval
import Verif.CMakeExport.Exec
import Verif.CMakeExport.Props
import Verif.CMakeExport.Witness
import Verif.Installed.Model
import Verif.Installed.Lem
import Verif.Installed.Props
import Verif.Installed.Witness
import Verif.Validator.Model
import Verif.Validator.Spec
import Verif.Validator.Props
import Verif.Validator.Witness
import Verif.EnvVar.Model
import Verif.EnvVar.Spec
import Verif.EnvVar.Props
import Verif.EnvVar.Witness
import Verif.Soname.Model
import Verif.Soname.Spec
import Verif.Soname.Props
import Verif.Soname.Witness
import Verif.Symbols.Model
import Verif.Symbols.Spec
import Verif.Symbols.Props
import Verif.Symbols.Witness
import Verif.ProtoOut.Model
import Verif.ProtoOut.Spec
import Verif.ProtoOut.Props
import Verif.ProtoOut.Witness
import Verif.LexOut.Model
import Verif.LexOut.Spec
import Verif.LexOut.Props
import Verif.LexOut.Witness
