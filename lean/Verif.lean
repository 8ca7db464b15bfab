import Verif.Props.C01_Simple8b
import Verif.Props.C03_Escaping
import Verif.Props.C04_PrefixCompression
import Verif.Props.C05_CompactStringVector
import Verif.Props.C02_PostingLists
import Verif.Props.C06_MemoryLimit
import Verif.Props.C07_C08_Cache
import Verif.Props.C11_PriorityQueue
import Verif.Props.C09_C10_C46_ConcurrentCache
import Verif.Props.C12_C13_Join
import Verif.Props.C14_C15_MultiJoin
import Verif.Props.C16_C50_Minus
import Verif.Props.C53_Pinning
import Verif.Props.C17_Union
import Verif.Props.C18_C20_Modifiers
import Verif.Props.C54_SortedOn
import Verif.Props.C55_LocalVocab
import Verif.Props.C21_GroupBy
import Verif.Props.C22_C23_Filter
import Verif.Props.C24_TransitivePath
import Verif.Props.C25_IdTable
import Verif.Props.C26_C27_Permutation
import Verif.Props.C28_C29_MetaData
import Verif.Props.C29_TextMetaData
import Verif.Props.C30_ExternalVocabulary
import Verif.Props.C31_VocabularyMerger
import Verif.Props.C32_Patterns
import Verif.Props.C33_CountAvailablePredicates
import Verif.Props.C34_HasPredicateScan
import Verif.Props.C35_C36_TextIntersection
import Verif.Props.C37_TopContexts
import Verif.Props.C57_TextVariables
import Verif.Props.C38_Values
import Verif.Props.C39_Bind
import Verif.Props.C40_CacheKeys
import Verif.Props.C44_Url
import Verif.Props.C48_Strings
import Verif.Props.C41_Pipeline
import Verif.Props.C42_Mmap
import Verif.Props.C43_BufferedVector
import Verif.Props.C49_PrefixRange
import Verif.Props.C58_VocabularyLookup
import Verif.Props.C59_FilterConditions
import Verif.Props.C45_NumericLiterals
import Verif.Props.C60_Dates
import Verif.Props.C51_Documents
import Verif.Props.C47_PropertyPaths
import Verif.Props.C61_PathPlan
import Verif.Props.C62_Turtle
import Verif.Props.C63_TurtleStream
import Verif.Props.C64_NTriples
import Verif.Props.C65_Planner
import Verif.Props.C66_GroupPlanner
import Verif.Props.C67_SparqlLexer
import Verif.Props.C68_SparqlParser
import Verif.Props.C69_Prefixes
import Verif.Props.C70_PatternTrick
import Verif.Props.C71_Server
import Verif.Props.C72_Export
import Verif.Props.C73_TextIndex
import Verif.Props.C73_Several
import Verif.Props.C74_ContextFile
import Verif.Props.C75_TextOperation
import Verif.Props.C76_TriplePlan
import Verif.Props.C77_PrefixHeuristic
import Verif.Props.C78_Documents
import Verif.Props.C78_Answers
import Verif.Props.C79_Responses
import Verif.Props.C80_Counts
import Verif.Props.C81_RuntimeInformation
import Verif.Props.C82_Timeout
import Verif.Props.C83_SortEstimate
import Verif.Props.C84_MetaDataConverter
import Verif.Props.C85_MetaDataIterator
import Verif.Props.C86_Configuration
