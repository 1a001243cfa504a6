import Verif.Props.Validation
import Verif.Props.Components
import Verif.Props.Utf8
import Verif.Props.Scan
import Verif.Props.Resolve
import Verif.Props.Normalize
import Verif.Props.NormalizeAuthority
import Verif.Props.IsNormalized
import Verif.Props.Edit
import Verif.Props.Encode
import Verif.Props.Decode
import Verif.Props.Convert
import Verif.Props.Build
import Verif.Props.BuildExact
import Verif.Props.Template
import Verif.Props.TemplateExpand
import Verif.Props.TemplateSafe
import Verif.Props.TemplateFragments
import Verif.Props.TemplateExact
import Verif.Props.Format
import Verif.Props.Construct
import Verif.Props.Diagnose
import Verif.Props.BuildDiagnose
import Verif.Props.TemplateError
import Verif.Props.TemplateMessage
import Verif.Props.ResolveLaws
import Verif.Props.Commute
import Verif.Props.Equivalence
import Verif.Props.EquivalencePreserve
import Verif.Props.CommuteIff
import Verif.Props.IpAddr
import Verif.Props.Alloc
import Verif.Props.History
import Verif.Spec.History
import Verif.Props.HistoryRefine
import Verif.Spec.AppendixB
import Verif.Props.AppendixB
import Verif.Spec.Contain
import Verif.Lemmas.Contain
import Verif.Props.Contain
import Verif.Spec.Compose
import Verif.Lemmas.Compose
import Verif.Props.Compose
import Verif.Spec.Keys
import Verif.Model.Keys
import Verif.Props.Keys
import Verif.Lemmas.Size
import Verif.Props.Size
import Verif.Props.TypedAccess
import Verif.Props.TemplateWriter
import Verif.Props.TemplateNaive
import Verif.Props.Debug
import Verif.Props.Serde
import Verif.Props.DisplayWriter
import Verif.Props.Asserts
import Verif.Props.TemplateCode
import Verif.Props.ResolveEquiv
import Verif.Conformance.Harness
import Verif.Conformance.Components
import Verif.Conformance.Resolve
import Verif.Conformance.Interop
import Verif.Conformance.Template
import Verif.Conformance.Misc
import Verif.Conformance.DocMisc
import Verif.Conformance.DocValidate
import Verif.Conformance.DocNormal
import Verif.Conformance.DocReference
import Verif.Conformance.DocAbsolute
import Verif.Conformance.DocRelative
import Verif.Spec.TemplateComponents
import Verif.Lemmas.TemplateComponents
import Verif.Props.TemplateComponents
import Verif.Spec.TemplateRead
import Verif.Props.TemplateRead
import Verif.Spec.RoundTrip
import Verif.Props.RoundTrip
import Verif.Props.Overflow
import Verif.Model.Api
import Verif.Spec.Api
import Verif.Props.Api
import Verif.Lemmas.NoColon
import Verif.Props.PasswordExact
import Verif.Model.Program
import Verif.Spec.Program
import Verif.Props.Program
import Verif.Spec.EditEquiv
import Verif.Props.EditEquiv
import Verif.Spec.BuildEdit
import Verif.Props.BuildEdit
import Verif.Props.Structured
import Verif.Props.Secret
import Verif.Spec.BaseEdit
import Verif.Props.BaseEdit
import Verif.Spec.Later
import Verif.Props.Later
import Verif.Spec.UriText
import Verif.Props.UriText
import Verif.Model.DecoderBuffer
import Verif.Props.DecoderBuffer
import Verif.Model.PathWork
import Verif.Props.PathWork
import Verif.Props.Preserve
import Verif.Spec.TemplateLaws
import Verif.Props.TemplateLaws
import Verif.Model.ValidateWork
import Verif.Props.ValidateWork
import Verif.Spec.TemplateSize
import Verif.Props.TemplateSize
import Verif.Model.AccessWork
import Verif.Props.AccessWork
import Verif.Model.TemplateWork
import Verif.Props.TemplateWork
import Verif.Spec.TemplateDynamic
import Verif.Props.TemplateDynamic
import Verif.Model.PctWork
import Verif.Props.PctWork
import Verif.Model.NormalizeWork
import Verif.Props.NormalizeWork
import Verif.Props.Reach
import Verif.Props.ReachOpaque
import Verif.Props.ReachExact
import Verif.Props.Paste
import Verif.Model.EditWork
import Verif.Props.EditWork
import Verif.Model.BuildWork
import Verif.Model.ExpandWork
import Verif.Props.BuildWork
import Verif.Props.ExpandWork
import Verif.Props.ExpandDynWork
