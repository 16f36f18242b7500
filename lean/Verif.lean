import Verif.Model.Base64
import Verif.Model.Base64Bio
import Verif.Model.Basic
import Verif.Model.CLib
import Verif.Model.Canonicalization
import Verif.Model.CommandLine
import Verif.Model.Device
import Verif.Model.DigestFaults
import Verif.Model.EncodedWord
import Verif.Model.Env
import Verif.Model.Faults
import Verif.Model.HeaderNodes
import Verif.Model.Locale
import Verif.Model.MailParser
import Verif.Model.MailSteps
import Verif.Model.OptionsHeap
import Verif.Model.Ownership
import Verif.Model.PublicKey
import Verif.Model.QuotedPrintable
import Verif.Model.Report
import Verif.Model.Resolver
import Verif.Model.Shared
import Verif.Model.SignSteps
import Verif.Model.Signatory
import Verif.Model.SignatoryOptions
import Verif.Model.Signature
import Verif.Model.Steps
import Verif.Model.Stream
import Verif.Model.StringStream
import Verif.Model.TagList
import Verif.Model.TagMap
import Verif.Model.Temporaries
import Verif.Model.Threads
import Verif.Model.Tokenizer
import Verif.Model.Tool
import Verif.Model.Util
import Verif.Model.Validatory
import Verif.Model.VerifySteps
import Verif.Model.WordSize
import Verif.Proofs.Address
import Verif.Proofs.AddressHang
import Verif.Proofs.AddressLex
import Verif.Proofs.AddressText
import Verif.Proofs.Ascii
import Verif.Proofs.BareCR
import Verif.Proofs.BareText
import Verif.Proofs.Binding
import Verif.Proofs.Body
import Verif.Proofs.BodyEquiv
import Verif.Proofs.BodyLoop
import Verif.Proofs.CNumber
import Verif.Proofs.Device
import Verif.Proofs.DigestFaults
import Verif.Proofs.Domain
import Verif.Proofs.EState
import Verif.Proofs.Encodings
import Verif.Proofs.Errors
import Verif.Proofs.GenText
import Verif.Proofs.HashInput
import Verif.Proofs.Header
import Verif.Proofs.HeaderClean
import Verif.Proofs.History
import Verif.Proofs.MailSteps
import Verif.Proofs.Message
import Verif.Proofs.Numbers
import Verif.Proofs.Prepend
import Verif.Proofs.PublicKey
import Verif.Proofs.Repeat
import Verif.Proofs.RepeatHistory
import Verif.Proofs.Rfc
import Verif.Proofs.RfcSign
import Verif.Proofs.RoundTrip
import Verif.Proofs.SigLines
import Verif.Proofs.SigTags
import Verif.Proofs.SigText
import Verif.Proofs.Signature
import Verif.Proofs.SignatureParse
import Verif.Proofs.Signing
import Verif.Proofs.StepAddress
import Verif.Proofs.StepAddressFold
import Verif.Proofs.StepBounds
import Verif.Proofs.StepKey
import Verif.Proofs.StepLists
import Verif.Proofs.StepLower
import Verif.Proofs.StepNested
import Verif.Proofs.StepTop
import Verif.Proofs.StepUnclosed
import Verif.Proofs.StepWords
import Verif.Proofs.Steps
import Verif.Proofs.StringAddress
import Verif.Proofs.StringParsers
import Verif.Proofs.StringStream
import Verif.Proofs.StringTags
import Verif.Proofs.StringWords
import Verif.Proofs.TagList
import Verif.Proofs.Temporaries
import Verif.Proofs.Threads
import Verif.Proofs.Tokenizer
import Verif.Proofs.ValueList
import Verif.Proofs.WordSize
import Verif.Props.Address
import Verif.Props.AddressBytes
import Verif.Props.AddressClosed
import Verif.Props.AddressText
import Verif.Props.Base64
import Verif.Props.Base64Bio
import Verif.Props.Binding
import Verif.Props.Body
import Verif.Props.Causes
import Verif.Props.Chain
import Verif.Props.CommandLine
import Verif.Props.Depth
import Verif.Props.Device
import Verif.Props.DigestFaults
import Verif.Props.Dns
import Verif.Props.EncodedWord
import Verif.Props.EncodedWordExact
import Verif.Props.Expired
import Verif.Props.Faults
import Verif.Props.FormExact
import Verif.Props.Header
import Verif.Props.Independence
import Verif.Props.KeyExact
import Verif.Props.Keys
import Verif.Props.LargeFields
import Verif.Props.Leaks
import Verif.Props.ListText
import Verif.Props.Locale
import Verif.Props.Lookup
import Verif.Props.MailSteps
import Verif.Props.Message
import Verif.Props.Options
import Verif.Props.OptionsHeap
import Verif.Props.OptionsHistory
import Verif.Props.OwnList
import Verif.Props.Ownership
import Verif.Props.Plain
import Verif.Props.QpDecode
import Verif.Props.QuotedPrintable
import Verif.Props.Recommended
import Verif.Props.Relay
import Verif.Props.Repeat
import Verif.Props.RepeatExact
import Verif.Props.RepeatHistory
import Verif.Props.Report
import Verif.Props.Rfc
import Verif.Props.RfcCases
import Verif.Props.RfcSign
import Verif.Props.RfcSound
import Verif.Props.RfcSoundCases
import Verif.Props.RoundTrip
import Verif.Props.Shared
import Verif.Props.SignSame
import Verif.Props.SignSteps
import Verif.Props.Signature
import Verif.Props.SignatureHistory
import Verif.Props.Signing
import Verif.Props.SigningForm
import Verif.Props.Sizes
import Verif.Props.StepAddress
import Verif.Props.Steps
import Verif.Props.StringStream
import Verif.Props.TagList
import Verif.Props.TagMap
import Verif.Props.Temporaries
import Verif.Props.Termination
import Verif.Props.Testing
import Verif.Props.Threads
import Verif.Props.Tokens
import Verif.Props.Tool
import Verif.Props.ToolCli
import Verif.Props.ToolSign
import Verif.Props.ToolStatus
import Verif.Props.Unambiguous
import Verif.Props.Verdict
import Verif.Props.Verify
import Verif.Props.VerifyBody
import Verif.Props.VerifySteps
import Verif.Props.WordSize
import Verif.Spec.Address
import Verif.Spec.AddressText
import Verif.Spec.Ascii
import Verif.Spec.Binding
import Verif.Spec.Body
import Verif.Spec.Causes
import Verif.Spec.Chain
import Verif.Spec.CommandLine
import Verif.Spec.Device
import Verif.Spec.DigestFaults
import Verif.Spec.Dns
import Verif.Spec.Domain
import Verif.Spec.EncodedWord
import Verif.Spec.Encodings
import Verif.Spec.EwText
import Verif.Spec.Faults
import Verif.Spec.HashInput
import Verif.Spec.Header
import Verif.Spec.KeyRecord
import Verif.Spec.ListText
import Verif.Spec.Locale
import Verif.Spec.Lookup
import Verif.Spec.Message
import Verif.Spec.Number
import Verif.Spec.Options
import Verif.Spec.OptionsHeap
import Verif.Spec.Position
import Verif.Spec.QpText
import Verif.Spec.Recommended
import Verif.Spec.Relay
import Verif.Spec.Repeat
import Verif.Spec.Report
import Verif.Spec.Rfc
import Verif.Spec.RfcSign
import Verif.Spec.RfcSound
import Verif.Spec.RoundTrip
import Verif.Spec.Shared
import Verif.Spec.SigHeader
import Verif.Spec.SigText
import Verif.Spec.Signing
import Verif.Spec.Steps
import Verif.Spec.Streams
import Verif.Spec.TagMap
import Verif.Spec.TagText
import Verif.Spec.Temporaries
import Verif.Spec.Threads
import Verif.Spec.Tokens
import Verif.Spec.Tool
import Verif.Spec.Verdict
import Verif.Spec.WordSize
import Verif.Tests.RepoTests
import Verif.Tests.Samples
import Verif.Tests.Toy
