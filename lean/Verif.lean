import Verif.Model.Grammar
import Verif.Model.LineIndex
import Verif.Model.Tree
import Verif.Model.Binder
import Verif.Spec.Scope
import Verif.Lemmas.Root
import Verif.Lemmas.SymbolKeys
import Verif.Props.C01
import Verif.Props.C02
import Verif.Props.C03
import Verif.Props.C04
import Verif.Props.C05
import Verif.Props.C06
import Verif.Props.C07
import Verif.Model.Nav
import Verif.Model.Check
import Verif.Spec.Resolve
import Verif.Lemmas.Cursor
import Verif.Props.C08
import Verif.Props.C09
import Verif.Props.C10
import Verif.Props.C11
import Verif.Props.C12
import Verif.Props.C13
import Verif.Props.C14
import Verif.Props.C15
import Verif.Props.C16
import Verif.Props.C17
import Verif.Props.C18
import Verif.Props.C19
import Verif.Props.C20
import Verif.Props.C41
import Verif.Props.C42
import Verif.Props.C43
import Verif.Props.C44
import Verif.Props.C46
import Verif.Props.C47
import Verif.Props.C21
import Verif.Props.C22
import Verif.Props.C40
import Verif.Props.C45
import Verif.Props.C32
import Verif.Props.C48
import Verif.Props.C30
import Verif.Props.C31
import Verif.Props.C49
import Verif.Props.C23
import Verif.Props.C24
import Verif.Props.C25
import Verif.Props.C26
import Verif.Props.C27
import Verif.Props.C28
import Verif.Props.C29
import Verif.Props.C36
import Verif.Props.C37
import Verif.Props.C38
import Verif.Props.C50
import Verif.Props.C51
import Verif.Props.C33
import Verif.Props.C35
import Verif.Props.C52
import Verif.Props.C53
import Verif.Spec.Grammar
import Verif.Lemmas.Derive
import Verif.Lemmas.DeriveGrammar
import Verif.Props.C54
import Verif.Spec.Lexemes
import Verif.Lemmas.Lexemes
import Verif.Lemmas.LexUnique
import Verif.Lemmas.FormatTrivia
import Verif.Lemmas.FormatTokens
import Verif.Lemmas.FormatSteps
import Verif.Lemmas.FormatKinds
import Verif.Lemmas.FormatDocs
import Verif.Lemmas.FormatRoot
import Verif.Lemmas.FormatInk
import Verif.Spec.Comments
import Verif.Lemmas.FormatMarks
import Verif.Lemmas.FormatMarkSteps
import Verif.Lemmas.FormatMarkKinds
import Verif.Lemmas.FormatMarkDocs
import Verif.Lemmas.FormatMarkRoot
import Verif.Props.C34
import Verif.Model.Completion
import Verif.Spec.Complete
import Verif.Lemmas.Completion
import Verif.Props.C39
import Verif.Model.Hover
import Verif.Spec.Hover
import Verif.Lemmas.Hover
import Verif.Lemmas.HoverMany
import Verif.Lemmas.Answered
import Verif.Props.C55
import Verif.Spec.Program
import Verif.Lemmas.Accept
import Verif.Lemmas.AcceptLook
import Verif.Lemmas.AcceptItems
import Verif.Lemmas.AcceptTok
import Verif.Lemmas.AcceptTy
import Verif.Lemmas.AcceptInstr
import Verif.Lemmas.AcceptBlock
import Verif.Lemmas.AcceptModule
import Verif.Lemmas.ProgramCheck
import Verif.Lemmas.Reparse
import Verif.Props.C56
import Verif.Props.C57
import Verif.Spec.Keywords
import Verif.Lemmas.Keywords
import Verif.Props.C58
import Verif.Props.C58Words
import Verif.Props.C59
import Verif.Props.C60
import Verif.Props.C61
import Verif.Props.C62
import Verif.Props.C63
import Verif.Props.C64
import Verif.Props.C65
import Verif.Props.C66
import Verif.Props.C67
import Verif.Props.C68
import Verif.Props.C69
import Verif.Props.C70
import Verif.Props.C71
import Verif.Props.C72
import Verif.Props.C73
import Verif.Props.C74
import Verif.Props.C75
import Verif.Props.C76
import Verif.Props.C77
import Verif.Props.C78
import Verif.Props.C79
import Verif.Props.C80
import Verif.Lemmas.Swap
import Verif.Lemmas.SwapDecl
import Verif.Lemmas.SwapTree
import Verif.Lemmas.Rewrite
