import Verif.Model.PyList
import Verif.Model.OList
import Verif.Lemmas.PyList
import Verif.Props.OList
import Verif.Props.WeakList
import Verif.Props.Field
import Verif.Props.MFNode
import Verif.Props.Route
import Verif.Model.Cache
import Verif.Props.Cache
import Verif.Model.TransformCache
import Verif.Props.TransformCache
import Verif.Model.Matrix
import Verif.Props.Matrix
import Verif.Model.CssColors
import Verif.Model.Coerce
import Verif.Props.Coerce
import Verif.Props.CoerceValues
import Verif.Model.PyDict
import Verif.Model.Proto
import Verif.Props.Proto
import Verif.Model.Scene
import Verif.Props.Scene
import Verif.Model.Copy
import Verif.Props.Copy
import Verif.Model.NodePath
import Verif.Props.NodePath
import Verif.Props.Grammar
import Verif.Model.TextOut
import Verif.Model.ParseVal
import Verif.Props.Text
import Verif.Props.Number
import Verif.Props.ListText
import Verif.Model.Lineariser
import Verif.Model.SceneRead
import Verif.Lemmas.SceneText
import Verif.Spec.RoundTrip
import Verif.Lemmas.RoundTrip
import Verif.Lemmas.RoundTrip2
import Verif.Lemmas.RoundTrip3
import Verif.Lemmas.RoundTrip4
import Verif.Lemmas.Decls
import Verif.Lemmas.ScriptView
import Verif.Lemmas.Names
import Verif.Props.Lineariser
import Verif.Lemmas.Writer
import Verif.Props.Script
import Verif.Props.Use
import Verif.Spec.Nesting
import Verif.Lemmas.Nesting
import Verif.Props.Nesting
import Verif.Spec.Strings
import Verif.Lemmas.Balance
import Verif.Lemmas.Balance2
import Verif.Props.Strings
import Verif.Props.TypeNames
import Verif.Model.BuiltinTable
import Verif.Model.NodeCoerce
import Verif.Props.Builtins
import Verif.Model.Frustum
import Verif.Props.Frustum
import Verif.Model.Construct
import Verif.Props.Construct
import Verif.Model.ProtoText
import Verif.Spec.ProtoTrip
import Verif.Lemmas.ProtoText
import Verif.Lemmas.ProtoText2
import Verif.Lemmas.ProtoText3
import Verif.Lemmas.ProtoText4
import Verif.Lemmas.ProtoText5
import Verif.Props.ProtoText
import Verif.Props.ExternText
import Verif.Props.Layout
import Verif.Props.Reader
import Verif.Model.X3D
import Verif.Spec.X3D
import Verif.Lemmas.X3D
import Verif.Props.X3D
import Verif.Model.FullRead
import Verif.Spec.Scopes
import Verif.Lemmas.FullRun
import Verif.Lemmas.FullRun2
import Verif.Lemmas.FullRun3
import Verif.Lemmas.FullRun4
import Verif.Lemmas.FullRun5
import Verif.Lemmas.Places
import Verif.Props.FullRead
import Verif.Props.Scopes
import Verif.Spec.Links
import Verif.Lemmas.Forward
import Verif.Lemmas.Linked
import Verif.Props.Instances
import Verif.Spec.Same
import Verif.Lemmas.Rename
import Verif.Lemmas.Refine
import Verif.Lemmas.Refine2
import Verif.Lemmas.Refine3
import Verif.Lemmas.Refine4
import Verif.Lemmas.Refine5
import Verif.Lemmas.Refine6
import Verif.Lemmas.Refine7
import Verif.Props.Refine
import Verif.Props.Interface
import Verif.Lemmas.Shape
import Verif.Spec.Content
import Verif.Lemmas.Content
import Verif.Lemmas.Content2
import Verif.Lemmas.Content3
import Verif.Lemmas.Content4
import Verif.Lemmas.Content5
import Verif.Lemmas.Wires
import Verif.Props.Content
import Verif.Spec.Accept
import Verif.Lemmas.Accept
import Verif.Lemmas.Accept2
import Verif.Lemmas.Accept3
import Verif.Props.Accept
import Verif.Model.Library
import Verif.Spec.Library
import Verif.Props.Library
import Verif.Props.Agree
import Verif.Props.OneMatrix
import Verif.Props.Bytes
import Verif.Props.RootEdit
import Verif.Props.EventLoops
import Verif.Props.FullLoops
import Verif.Lemmas.SameText
import Verif.Lemmas.SameText2
import Verif.Props.SavedAgain
import Verif.Model.CopyText
import Verif.Spec.CopyText
import Verif.Lemmas.CopyText
import Verif.Props.CopyText
import Verif.Spec.Good
import Verif.Lemmas.Good
import Verif.Lemmas.Good2
import Verif.Lemmas.Good3
import Verif.Lemmas.Good4
import Verif.Lemmas.Good5
import Verif.Lemmas.Good6
import Verif.Props.Good
import Verif.Lemmas.Sharing
import Verif.Props.Sharing
import Verif.Lemmas.Loaded
import Verif.Spec.Loaded
import Verif.Props.Loaded
import Verif.Model.Edit
import Verif.Spec.Edit
import Verif.Props.Edit
import Verif.Model.Animate
import Verif.Spec.Animate
import Verif.Lemmas.Animate
import Verif.Lemmas.RouteWires
import Verif.Props.Animate
import Verif.Model.Watch
import Verif.Spec.Watch
import Verif.Lemmas.Watch
import Verif.Props.Watch
import Verif.Model.Session
import Verif.Spec.Session
import Verif.Props.Session
import Verif.Props.OuterRoutes
import Verif.Props.SessionScripts
import Verif.Spec.Order
import Verif.Props.Order
import Verif.Lemmas.SameText3
import Verif.Props.SavedScripts
import Verif.Model.WeakDict
import Verif.Spec.WeakDict
import Verif.Props.WeakDict
import Verif.Lemmas.LoadedScripts
import Verif.Spec.LibraryScripts
import Verif.Props.LibraryScripts
import Verif.Spec.EditScripts
import Verif.Props.EditScripts
