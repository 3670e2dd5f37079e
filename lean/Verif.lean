import Verif.Base
import Verif.BitLemmas
import Verif.Runtime
import Verif.Spec
import Verif.VarLemmas
import Verif.StreamLemmas
import Verif.ScalarLemmas
import Verif.TopLevel
import Verif.PropsScalar
import Verif.PropsStream
import Verif.Delta
import Verif.Array
import Verif.DeltaLemmas
import Verif.ArrayLemmas
import Verif.Kinds
import Verif.PackLemmas
import Verif.ArrayReadLemmas
import Verif.PropsArray
import Verif.Val
import Verif.Schema
import Verif.SchemaSpec
import Verif.SchemaScalar
import Verif.SchemaPack
import Verif.SchemaField
import Verif.SchemaObj
import Verif.SchemaChoice
import Verif.SchemaCodec
import Verif.SchemaSpecLemmas
import Verif.SchemaDemo
import Verif.PropsSchema
import Verif.SchemaExtra
import Verif.SizeSpec
import Verif.SizeLemmas
import Verif.SchemaSize
import Verif.SizeValid
import Verif.PropsSize
import Verif.Expr
import Verif.ExprLemmas
import Verif.Mixing
import Verif.Scope
import Verif.ScopeLemmas
import Verif.Template
import Verif.TemplateLemmas
import Verif.Items
import Verif.ItemLemmas
import Verif.PropsCompiler
import Verif.ExprText
import Verif.ExprTextLemmas
import Verif.PropsText
import Verif.Wire
import Verif.WireLemmas
import Verif.WireDet
import Verif.SchemaWire
import Verif.SchemaWireTy
import Verif.PropsWire
import Verif.ReadSpec
import Verif.ReadLemmas
import Verif.ScalarRead
import Verif.SchemaRead
import Verif.SchemaReadTy
import Verif.PropsRead
import Verif.Literal
import Verif.LiteralSpec
import Verif.LiteralLemmas
import Verif.PropsLiteral
import Verif.Modules
import Verif.ModulesSpec
import Verif.ModulesLemmas
import Verif.PropsModules
import Verif.Emit
import Verif.Exec
import Verif.ExecLemmas
import Verif.EmitSpec
import Verif.EmitEncode
import Verif.EmitDecode
import Verif.EmitBitsize
import Verif.EmitBody
import Verif.EmitImpl
import Verif.EmitSchema
import Verif.PropsEmit
import Verif.ExprType
import Verif.ExprTypeSpec
import Verif.ExprTypeLemmas
import Verif.ExprTypeMain
import Verif.PropsTyping
import Verif.Source
import Verif.Visitor
import Verif.VisitSpec
import Verif.VisitRead
import Verif.VisitLemmas
import Verif.VisitReadLemmas
import Verif.Symbols
import Verif.SymbolsLemmas
import Verif.PropsVisit
import Verif.AcceptSpec
import Verif.AcceptLemmas
import Verif.PropsAccept
import Verif.Labels
import Verif.LabelSpec
import Verif.LabelLemmas
import Verif.PropsLabels
import Verif.ScopeCycles
import Verif.PropsCycles
import Verif.PropsTemplates
import Verif.Arguments
import Verif.ArgumentsSpec
import Verif.ArgumentsLemmas
import Verif.PropsArguments
import Verif.Instantiate
import Verif.ResolveSpec
import Verif.ResolveLemmas
import Verif.InstantiateLemmas
import Verif.PropsResolve
import Verif.Shared
import Verif.SharedLemmas
import Verif.PropsShared
import Verif.InstanceSpec
import Verif.InstanceLemmas
import Verif.PropsInstantiate
import Verif.Recursive
import Verif.RecursiveSpec
import Verif.RecursiveLemmas
import Verif.RecursiveSize
import Verif.RecursiveRead
import Verif.RecursiveWrite
import Verif.PropsRecursive
import Verif.Names
import Verif.NamesSpec
import Verif.NamesLemmas
import Verif.PropsNames
import Verif.ExprValueSpec
import Verif.ExprValueLemmas
import Verif.ExprValueMain
import Verif.PropsValue
import Verif.SourceSpec
import Verif.SourceLemmas
import Verif.PropsSource
import Verif.Extern
import Verif.PropsExtern
import Verif.LinkAgree
import Verif.LinkCodec
import Verif.LinkSpec
import Verif.LinkLemmas
import Verif.LinkMain
import Verif.PropsLink
import Verif.WireTally
import Verif.SchemaTally
import Verif.PropsPlan
import Verif.ReadWire
import Verif.ReadWireTy
import Verif.ReadWireMain
import Verif.PropsInterop
import Verif.Compile
import Verif.TextSpec
import Verif.CompileSpec
import Verif.TextLemmas
import Verif.TextConforms
import Verif.PropsCompile
import Verif.ModifierSpec
import Verif.PropsModifiers
import Verif.PackageSpec
import Verif.PackageCode
import Verif.PackageLemmas
import Verif.PackageLink
import Verif.PackageValues
import Verif.PropsPackage
import Verif.Parser
import Verif.ParserSpec
import Verif.ParserLemmas
import Verif.PropsParser
import Verif.InstOrder
import Verif.PropsOrder
import Verif.PropsOperations
import Verif.Tables
import Verif.TablesLemmas
import Verif.TablesSpec
import Verif.PropsTables
import Verif.Lexer
import Verif.LexerSpec
import Verif.LexerLemmas
import Verif.LexerRules
import Verif.LexerTokens
import Verif.LexerLongest
import Verif.PropsLexer
import Verif.FileParser
import Verif.FileSpec
import Verif.FileLemmas
import Verif.FileFields
import Verif.FileOffset
import Verif.FileDecls
import Verif.FileSound
import Verif.FileShape
import Verif.FileDemands
import Verif.PropsFile
import Verif.PropsCharacters
import Verif.Alias
import Verif.AliasSpec
import Verif.AliasLemmas
import Verif.PropsAlias
import Verif.Constant
import Verif.ConstantSpec
import Verif.ConstantLemmas
import Verif.PropsConstant
import Verif.PropsEnumeration
import Verif.PlaceText
import Verif.PropsReading
import Verif.PropsParameter
import Verif.PropsObject
import Verif.PropsBitmask
import Verif.Function
import Verif.PropsFunction
import Verif.MethodLemmas
import Verif.PropsMethod
import Verif.AcyclicSpec
import Verif.AcyclicLemmas
import Verif.PropsAcyclic
import Verif.PropsUndefined
import Verif.PropsUndefinedReader
