import Verif.Bits
import Verif.Stream
import Verif.Spec
import Verif.Fixed
import Verif.Varint
import Verif.Align
import Verif.Strict
import Verif.VarintRead
import Verif.Codec
import Verif.Bitio
import Verif.BitioRead
import Verif.Discipline
import Verif.Delta
import Verif.Traits
import Verif.TraitsLaws
import Verif.Array
import Verif.Elem
import Verif.Object
import Verif.Schema
import Verif.SchemaLaws
import Verif.SchemaDecl
import Verif.SchemaAccept
import Verif.AstEnum
import Verif.AstMix
import Verif.Imports
import Verif.Original
import Verif.Files
import Verif.Outputs
import Verif.Strip
import Verif.Literals
import Verif.Fold
import Verif.GoText
import Verif.FoldLaws
import Verif.Props.Ints
import Verif.Props.Codec
import Verif.Props.Stream
import Verif.Props.Delta
import Verif.Props.Array
import Verif.Props.Object
import Verif.Props.Reuse
import Verif.Props.Size
import Verif.Props.Enum
import Verif.Props.Mix
import Verif.Props.Imports
import Verif.Props.Original
import Verif.Props.Files
import Verif.Props.Names
import Verif.Props.Outputs
import Verif.Props.Strip
import Verif.Props.Literals
import Verif.Props.Consts
import Verif.Props.Fold
import Verif.Props.GoText
import Verif.Wire
import Verif.WireNum
import Verif.WirePack
import Verif.WireObj
import Verif.WireDecl
import Verif.WireTotal
import Verif.WireDefined
import Verif.Props.Wire
import Verif.Template
import Verif.TemplateLaws
import Verif.TemplateRun
import Verif.TemplateUse
import Verif.Props.Template
import Verif.GoTypes
import Verif.Props.GoTypes
import Verif.Props.GoValues
import Verif.Discover
import Verif.FrontEnd
import Verif.Props.Discover
import Verif.Props.FrontEnd
import Verif.Props.FrontDecls
import Verif.Props.FrontPackages
import Verif.Props.FrontRead
import Verif.Resolve
import Verif.GoNames
import Verif.Props.Resolve
import Verif.Props.GoNames
import Verif.Scope
import Verif.Props.Scope
import Verif.Props.Dots
import Verif.Select
import Verif.Props.Select
import Verif.Props.SelectEnum
import Verif.Parser
import Verif.Lexer
import Verif.Defaults
import Verif.Props.Parser
import Verif.Props.LexerRules
import Verif.Props.Lexer
import Verif.Props.Defaults
import Verif.DeclParser
import Verif.Props.DeclTokens
import Verif.Props.DeclReads
import Verif.Props.DeclFields
import Verif.Props.DeclOffsets
import Verif.Props.DeclOthers
import Verif.Props.DeclParser
import Verif.Callbacks
import Verif.Props.Callbacks
import Verif.Comments
import Verif.Props.Comments
import Verif.Props.LexerTables
import Verif.ItemValues
import Verif.Props.ItemValues
import Verif.Props.SubtypeUse
import Verif.Generate
import Verif.Props.GenerateExprs
import Verif.Props.Generate
import Verif.Props.NoPanic
import Verif.Props.GenerateItems
import Verif.Props.GenerateMixed
import Verif.Props.GenerateArith
import Verif.Props.Depth
import Verif.Functions
import Verif.Props.Functions
import Verif.Props.GenerateOthers
import Verif.Run
import Verif.Props.Run
import Verif.Concurrent
import Verif.Props.Concurrent
import Verif.EnumTables
import Verif.Props.EnumTables
import Verif.Calls
import Verif.Props.Calls
import Verif.Memory
import Verif.Props.Memory
import Verif.Props.Parameters
import Verif.Props.ParametersText
import Verif.Props.GenerateIndex
import Verif.Props.GenerateIsset
import Verif.Props.Constraints
import Verif.Props.Extend
import Verif.Props.ObjectStream
import Verif.Props.NoPanicText
import Verif.Props.ObjectWrite
import Verif.Props.ObjectText
import Verif.Props.Again
import Verif.Props.AgainText
import Verif.Props.StreamText
import Verif.Audit
