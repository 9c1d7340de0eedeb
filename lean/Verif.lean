import Verif.Model.Main
import Verif.Model.Concrete
import Verif.Test.RepoTests
import Verif.Props.Filters
import Verif.Props.Lexer
import Verif.Props.Parser
import Verif.Props.Print
import Verif.Props.Stream
import Verif.Props.Main
import Verif.Props.Crypt
import Verif.Props.CryptFilters
import Verif.Props.IndObj
import Verif.Props.GetObject
import Verif.Spec.Grammar
import Verif.Props.Xref
import Verif.Props.XrefLoad
import Verif.Props.Load
import Verif.Props.Font
import Verif.Props.Page
import Verif.Lemmas.LogEq
import Verif.Lemmas.Fixed
import Verif.Spec.Extract
import Verif.Lemmas.Post
import Verif.Lemmas.Walk
import Verif.Lemmas.Emits
import Verif.Lemmas.Only
import Verif.Lemmas.Covers
import Verif.Props.Order
import Verif.Props.Extract
import Verif.Spec.Tree
import Verif.Lemmas.Tree
import Verif.Props.Tree
import Verif.Spec.Report
import Verif.Lemmas.Report
import Verif.Props.Report
import Verif.Props.Raw
import Verif.Spec.Tame
import Verif.Spec.Order
import Verif.Lemmas.Runs
import Verif.Lemmas.RunsExtract
import Verif.Lemmas.RunsLoad
import Verif.Lemmas.RunsExample
import Verif.Lemmas.Verbose
import Verif.Lemmas.Keys
import Verif.Lemmas.LoadOrder
import Verif.Props.Ends
import Verif.Lemmas.Layout
import Verif.Lemmas.Reread
import Verif.Props.Layout
import Verif.Spec.Document
import Verif.Lemmas.Document
import Verif.Lemmas.Lost
import Verif.Lemmas.DocLoad
import Verif.Props.Document
import Verif.Lemmas.Deeper
import Verif.Props.Whole
import Verif.Spec.Secret
import Verif.Props.Secret
import Verif.Props.Found
import Verif.Spec.Double
import Verif.Lemmas.Double
import Verif.Lemmas.Number
import Verif.Lemmas.Fraction
import Verif.Props.Number
import Verif.Spec.Packed
import Verif.Props.Packed
import Verif.Props.Linear
import Verif.Props.Owner
import Verif.Spec.Hybrid
import Verif.Props.Hybrid
import Verif.Spec.Pages
import Verif.Spec.Write
import Verif.Props.Write
import Verif.Props.Pages
import Verif.Spec.Files
import Verif.Spec.OutputDir
import Verif.Lemmas.Writable
import Verif.Props.Files
import Verif.Props.Urls
import Verif.Props.Data
import Verif.Lemmas.Digits
import Verif.Lemmas.PrintTenths
import Verif.Spec.Rc4
import Verif.Lemmas.Rc4
import Verif.Model.Lzw
import Verif.Spec.Lzw
import Verif.Lemmas.Lzw
import Verif.Props.Lzw
import Verif.Model.Flate
import Verif.Spec.Flate
import Verif.Lemmas.Flate
import Verif.Props.Flate
import Verif.Spec.Coding
import Verif.Props.Coding
import Verif.Props.Stored
import Verif.Spec.Unicode
import Verif.Props.Unicode
import Verif.Props.Decode
import Verif.Props.Numbers
import Verif.Props.XrefExamples
import Verif.Spec.Inherited
import Verif.Props.Inherited
import Verif.Spec.Drawn
import Verif.Props.Drawn
import Verif.Props.Exact
import Verif.Props.RawAll
import Verif.Props.Endings
import Verif.Spec.Encoding
import Verif.Props.Encoding
import Verif.Props.Annots
import Verif.Props.SecretPage
