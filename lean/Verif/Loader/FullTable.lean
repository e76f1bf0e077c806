import Verif.Loader.Full
import Verif.Loader.RecordTable
/-!
# The loaders of the three parsers

One entry for each loader that can be reached from `_document_load` (the last entry, `top`) or from the loader of input files (`CWLInputFileLoader`), transcribed from the end of
`src/cwl_utils/parser/cwl_v1_0.py`, `cwl_v1_1.py` and `cwl_v1_2.py`, in the order of their definitions; a comment has the place in the table and the line of the definition.  `CWLObjectTypeLoader` is entered with the loaders added
later (for example `cwl_v1_2.py:28994-29005`).  The loaders of the fields are those of `fromDoc`, for each class of `RecordTable.lean` in the order of that table; classes that cannot be reached have none.
-/
namespace CwlUtils.Loader.Full

/-- The loaders of `cwl_v1_0.py`. -/
def ldrs10 : List Ldr := [
  .prim .str,  -- 0: 22347
  .prim .int,  -- 1: 22348
  .prim .float,  -- 2: 22349
  .prim .bool,  -- 3: 22350
  .prim .none,  -- 4: 22351
  .any,  -- 5: 22352
  .enum ["null", "boolean", "int", "long", "float", "double", "string", "File", "Directory"],  -- 6: 22403
  .record 3,  -- 7: 22427
  .record 4,  -- 8: 22428
  .union [3, 1, 2, 0, 7, 8, 11, 12],  -- 9: 22429
  .union [4, 9],  -- 10: 22430
  .array 10,  -- 11: 22436
  .map 10 true,  -- 12: 22439
  .enum ["v1.0"],  -- 13: 22443
  .expression,  -- 14: 22449
  .proxy 142,  -- 15: 22452
  .record 5,  -- 16: 22454
  .record 6,  -- 17: 22455
  .record 7,  -- 18: 22456
  .record 8,  -- 19: 22457
  .record 9,  -- 20: 22458
  .record 10,  -- 21: 22459
  .record 11,  -- 22: 22460
  .record 12,  -- 23: 22461
  .record 13,  -- 24: 22462
  .proxy 127,  -- 25: 22464
  .record 15,  -- 26: 22466
  .record 16,  -- 27: 22469
  .record 17,  -- 28: 22470
  .record 18,  -- 29: 22471
  .record 19,  -- 30: 22472
  .record 20,  -- 31: 22473
  .record 21,  -- 32: 22476
  .record 22,  -- 33: 22479
  .record 23,  -- 34: 22480
  .record 24,  -- 35: 22483
  .record 25,  -- 36: 22486
  .record 26,  -- 37: 22489
  .record 27,  -- 38: 22492
  .record 28,  -- 39: 22495
  .record 29,  -- 40: 22496
  .enum ["stdout"],  -- 41: 22497
  .enum ["stderr"],  -- 42: 22548
  .record 30,  -- 43: 22599
  .record 31,  -- 44: 22600
  .record 32,  -- 45: 22601
  .record 33,  -- 46: 22602
  .record 34,  -- 47: 22603
  .record 35,  -- 48: 22604
  .record 36,  -- 49: 22607
  .record 37,  -- 50: 22608
  .record 38,  -- 51: 22611
  .record 39,  -- 52: 22612
  .record 40,  -- 53: 22615
  .enum ["merge_nested", "merge_flattened"],  -- 54: 22616
  .record 41,  -- 55: 22626
  .record 42,  -- 56: 22630
  .record 43,  -- 57: 22631
  .enum ["dotproduct", "nested_crossproduct", "flat_crossproduct"],  -- 58: 22632
  .record 44,  -- 59: 22643
  .record 45,  -- 60: 22644
  .record 46,  -- 61: 22645
  .record 47,  -- 62: 22648
  .record 48,  -- 63: 22651
  .record 49,  -- 64: 22654
  .record 50,  -- 65: 22657
  .record 51,  -- 66: 22658
  .record 52,  -- 67: 22661
  .record 53,  -- 68: 22662
  .record 54,  -- 69: 22663
  .record 55,  -- 70: 22664
  .record 56,  -- 71: 22665
  .record 57,  -- 72: 22666
  .record 58,  -- 73: 22667
  .record 59,  -- 74: 22668
  .array 0,  -- 75: 22669
  .union [4, 0, 75],  -- 76: 22670
  .uri 0 true false none none,  -- 77: 22677
  .enum ["record"],  -- 78: 22727
  .typeDsl 78 (some 2),  -- 79: 22728
  .union [4, 0],  -- 80: 22729
  .uri 80 true false none none,  -- 81: 22735
  .uri 75 true false none none,  -- 82: 22738
  .enum ["enum"],  -- 83: 22741
  .typeDsl 83 (some 2),  -- 84: 22742
  .enum ["array"],  -- 85: 22752
  .typeDsl 85 (some 2),  -- 86: 22753
  .enum ["File"],  -- 87: 22812
  .uri 87 false true none none,  -- 88: 22813
  .uri 80 false false none none,  -- 89: 22816
  .union [4, 1],  -- 90: 22819
  .union [7, 8],  -- 91: 22825
  .array 91,  -- 92: 22831
  .union [4, 92],  -- 93: 22834
  .uri 80 true false none (some true),  -- 94: 22842
  .enum ["Directory"],  -- 95: 22845
  .uri 95 false true none none,  -- 96: 22846
  .union [0, 14],  -- 97: 22849
  .array 97,  -- 98: 22855
  .union [4, 0, 14, 98],  -- 99: 22858
  .union [4, 3],  -- 100: 22868
  .union [6, 17, 18, 19, 0],  -- 101: 22874
  .array 101,  -- 102: 22885
  .union [6, 17, 18, 19, 0, 102],  -- 103: 22890
  .typeDsl 103 (some 2),  -- 104: 22902
  .union [4, 29],  -- 105: 22909
  .array 16,  -- 106: 22915
  .union [4, 106],  -- 107: 22916
  .idMap 107 "name" "type",  -- 108: 22922
  .uri 103 false true (some 2) none,  -- 109: 22925
  .union [6, 21, 22, 23, 0],  -- 110: 22934
  .array 110,  -- 111: 22945
  .union [6, 21, 22, 23, 0, 111],  -- 112: 22950
  .typeDsl 112 (some 2),  -- 113: 22962
  .union [4, 30],  -- 114: 22969
  .array 20,  -- 115: 22975
  .union [4, 115],  -- 116: 22976
  .idMap 116 "name" "type",  -- 117: 22982
  .uri 112 false true (some 2) none,  -- 118: 22985
  .union [4, 0, 75, 14],  -- 119: 22994
  .uri 119 true false none (some true),  -- 120: 23004
  .union [4, 6, 17, 18, 19, 0, 102],  -- 121: 23013
  .typeDsl 121 (some 2),  -- 122: 23026
  .union [4, 0, 14],  -- 123: 23033
  .uri 123 true false none (some true),  -- 124: 23040
  .array 24,  -- 125: 23045
  .idMap 125 "id" "type",  -- 126: 23046
  .union [26, 27, 44, 45, 48, 49, 50, 51, 61, 62, 63, 64, 65, 66, 67, 68, 69, 70, 72, 73, 74],  -- 127: 23053
  .array 25,  -- 128: 23080
  .union [4, 128],  -- 129: 23081
  .idMap 129 "class" "None",  -- 130: 23087
  .union [26, 27, 44, 45, 48, 49, 50, 51, 61, 62, 63, 64, 65, 66, 67, 68, 69, 70, 72, 73, 74, 5],  -- 131: 23090
  .array 131,  -- 132: 23118
  .union [4, 132],  -- 133: 23123
  .idMap 133 "class" "None",  -- 134: 23131
  .union [4, 13],  -- 135: 23138
  .uri 135 false true none none,  -- 136: 23144
  .enum ["InlineJavascriptRequirement"],  -- 137: 23147
  .uri 137 false true none none,  -- 138: 23150
  .union [4, 75],  -- 139: 23153
  .enum ["SchemaDefRequirement"],  -- 140: 23159
  .uri 140 false true none none,  -- 141: 23162
  .union [17, 18, 19],  -- 142: 23165
  .array 15,  -- 143: 23174
  .union [4, 0, 14, 75],  -- 144: 23175
  .union [6, 32, 33, 34, 0],  -- 145: 23185
  .array 145,  -- 146: 23196
  .union [6, 32, 33, 34, 0, 146],  -- 147: 23201
  .typeDsl 147 (some 2),  -- 148: 23213
  .array 31,  -- 149: 23220
  .union [4, 149],  -- 150: 23223
  .idMap 150 "name" "type",  -- 151: 23229
  .uri 147 false true (some 2) none,  -- 152: 23234
  .union [6, 36, 37, 38, 0],  -- 153: 23243
  .array 153,  -- 154: 23254
  .union [6, 36, 37, 38, 0, 154],  -- 155: 23259
  .typeDsl 155 (some 2),  -- 156: 23271
  .array 35,  -- 157: 23278
  .union [4, 157],  -- 158: 23281
  .idMap 158 "name" "type",  -- 159: 23287
  .uri 155 false true (some 2) none,  -- 160: 23292
  .union [4, 6, 32, 33, 34, 0, 146],  -- 161: 23301
  .typeDsl 161 (some 2),  -- 162: 23314
  .union [4, 6, 41, 42, 36, 37, 38, 0, 154],  -- 163: 23321
  .typeDsl 163 (some 2),  -- 164: 23336
  .enum ["CommandLineTool"],  -- 165: 23343
  .uri 165 false true none none,  -- 166: 23346
  .array 39,  -- 167: 23349
  .idMap 167 "id" "type",  -- 168: 23350
  .array 40,  -- 169: 23353
  .idMap 169 "id" "type",  -- 170: 23356
  .union [0, 14, 29],  -- 171: 23359
  .array 171,  -- 172: 23366
  .union [4, 172],  -- 173: 23369
  .array 1,  -- 174: 23377
  .union [4, 174],  -- 175: 23378
  .enum ["DockerRequirement"],  -- 176: 23384
  .uri 176 false true none none,  -- 177: 23387
  .enum ["SoftwareRequirement"],  -- 178: 23390
  .uri 178 false true none none,  -- 179: 23393
  .array 46,  -- 180: 23396
  .idMap 180 "package" "specs",  -- 181: 23397
  .uri 139 false false none (some true),  -- 182: 23400
  .enum ["InitialWorkDirRequirement"],  -- 183: 23403
  .uri 183 false true none none,  -- 184: 23406
  .union [7, 8, 47, 0, 14],  -- 185: 23409
  .array 185,  -- 186: 23420
  .union [186, 0, 14],  -- 187: 23425
  .enum ["EnvVarRequirement"],  -- 188: 23434
  .uri 188 false true none none,  -- 189: 23437
  .array 28,  -- 190: 23440
  .idMap 190 "envName" "envValue",  -- 191: 23441
  .enum ["ShellCommandRequirement"],  -- 192: 23444
  .uri 192 false true none none,  -- 193: 23447
  .enum ["ResourceRequirement"],  -- 194: 23450
  .uri 194 false true none none,  -- 195: 23453
  .union [4, 1, 0, 14],  -- 196: 23456
  .union [4, 6, 21, 22, 23, 0, 111],  -- 197: 23464
  .typeDsl 197 (some 2),  -- 198: 23477
  .enum ["ExpressionTool"],  -- 199: 23484
  .uri 199 false true none none,  -- 200: 23487
  .array 52,  -- 201: 23490
  .idMap 201 "id" "type",  -- 202: 23493
  .uri 76 false false (some 1) none,  -- 203: 23496
  .union [4, 54],  -- 204: 23499
  .uri 76 false false (some 2) none,  -- 205: 23505
  .array 56,  -- 206: 23508
  .idMap 206 "id" "source",  -- 207: 23509
  .union [0, 57],  -- 208: 23512
  .array 208,  -- 209: 23518
  .union [209],  -- 210: 23521
  .uri 210 true false none none,  -- 211: 23524
  .array 5,  -- 212: 23533
  .union [4, 212],  -- 213: 23534
  .idMap 213 "class" "None",  -- 214: 23540
  .union [0, 43, 53, 60, 71],  -- 215: 23543
  .uri 215 false false none none,  -- 216: 23554
  .uri 76 false false (some 0) none,  -- 217: 23563
  .union [4, 58],  -- 218: 23566
  .uri 218 false true none none,  -- 219: 23572
  .enum ["Workflow"],  -- 220: 23575
  .uri 220 false true none none,  -- 221: 23576
  .array 55,  -- 222: 23579
  .idMap 222 "id" "type",  -- 223: 23582
  .array 59,  -- 224: 23585
  .union [224],  -- 225: 23586
  .idMap 225 "id" "None",  -- 226: 23589
  .enum ["SubworkflowFeatureRequirement"],  -- 227: 23592
  .uri 227 false true none none,  -- 228: 23595
  .enum ["ScatterFeatureRequirement"],  -- 229: 23598
  .uri 229 false true none none,  -- 230: 23601
  .enum ["MultipleInputFeatureRequirement"],  -- 231: 23604
  .uri 231 false true none none,  -- 232: 23607
  .enum ["StepInputExpressionRequirement"],  -- 233: 23610
  .uri 233 false true none none,  -- 234: 23613
  .uri 0 false true none none,  -- 235: 23616
  .enum ["no_listing", "shallow_listing", "deep_listing"],  -- 236: 23617
  .union [236],  -- 237: 23625
  .uri 75 false false (some 0) none,  -- 238: 23626
  .union [1, 0],  -- 239: 23629
  .union [3, 0],  -- 240: 23635
  .union [1, 14],  -- 241: 23641
  .union [0, 75],  -- 242: 23647
  .union [4, 1, 14],  -- 243: 23653
  .union [43, 53, 60, 71],  -- 244: 23660
  .array 244,  -- 245: 23670
  .union [43, 53, 60, 71, 245]]  -- 246: 23675

/-- The loaders of the fields of the classes of `cwl_v1_0.py`. -/
def fields10 : List (List (String × Nat)) := [
  [],  -- 0: CWLArraySchema, 857
  [],  -- 1: CWLRecordField, 1056
  [],  -- 2: CWLRecordSchema, 1324
  [("class", 88), ("location", 89), ("path", 89), ("basename", 80), ("dirname", 80), ("nameroot", 80), ("nameext", 80), ("checksum", 80), ("size", 90), ("secondaryFiles", 93), ("format", 94), ("contents", 80)],  -- 3: File, 1523
  [("class", 96), ("location", 89), ("path", 89), ("basename", 80), ("listing", 93)],  -- 4: Directory, 2305
  [("name", 77), ("doc", 76), ("type", 104), ("inputBinding", 105), ("label", 80)],  -- 5: InputRecordField, 2699
  [("name", 81), ("fields", 108), ("type", 79), ("label", 80)],  -- 6: InputRecordSchema, 3082
  [("name", 81), ("symbols", 82), ("type", 84), ("label", 80), ("inputBinding", 105)],  -- 7: InputEnumSchema, 3405
  [("items", 109), ("type", 86), ("label", 80), ("inputBinding", 105)],  -- 8: InputArraySchema, 3790
  [("name", 77), ("doc", 76), ("type", 113), ("outputBinding", 114)],  -- 9: OutputRecordField, 4107
  [("fields", 117), ("type", 79), ("label", 80)],  -- 10: OutputRecordSchema, 4435
  [("name", 81), ("symbols", 82), ("type", 84), ("label", 80), ("outputBinding", 114)],  -- 11: OutputEnumSchema, 4692
  [("items", 118), ("type", 86), ("label", 80), ("outputBinding", 114)],  -- 12: OutputArraySchema, 5077
  [("id", 77), ("label", 80), ("secondaryFiles", 99), ("streamable", 100), ("doc", 76), ("format", 120), ("inputBinding", 105), ("default", 10), ("type", 122)],  -- 13: InputParameter, 5394
  [],  -- 14: OutputParameter, 6023
  [("class", 138), ("expressionLib", 139)],  -- 15: InlineJavascriptRequirement, 6558
  [("class", 141), ("types", 143)],  -- 16: SchemaDefRequirement, 6741
  [("envName", 0), ("envValue", 97)],  -- 17: EnvironmentDef, 6919
  [("loadContents", 100), ("position", 90), ("prefix", 80), ("separate", 100), ("itemSeparator", 80), ("valueFrom", 123), ("shellQuote", 100)],  -- 18: CommandLineBinding, 7126
  [("glob", 144), ("loadContents", 100), ("outputEval", 123)],  -- 19: CommandOutputBinding, 7657
  [("name", 77), ("doc", 76), ("type", 148), ("inputBinding", 105), ("label", 80)],  -- 20: CommandInputRecordField, 7931
  [("name", 81), ("fields", 151), ("type", 79), ("label", 80)],  -- 21: CommandInputRecordSchema, 8314
  [("name", 81), ("symbols", 82), ("type", 84), ("label", 80), ("inputBinding", 105)],  -- 22: CommandInputEnumSchema, 8637
  [("items", 152), ("type", 86), ("label", 80), ("inputBinding", 105)],  -- 23: CommandInputArraySchema, 9022
  [("name", 77), ("doc", 76), ("type", 156), ("outputBinding", 114)],  -- 24: CommandOutputRecordField, 9339
  [("name", 81), ("fields", 159), ("type", 79), ("label", 80)],  -- 25: CommandOutputRecordSchema, 9667
  [("name", 81), ("symbols", 82), ("type", 84), ("label", 80), ("outputBinding", 114)],  -- 26: CommandOutputEnumSchema, 9990
  [("items", 160), ("type", 86), ("label", 80), ("outputBinding", 114)],  -- 27: CommandOutputArraySchema, 10375
  [("id", 77), ("label", 80), ("secondaryFiles", 99), ("streamable", 100), ("doc", 76), ("format", 120), ("inputBinding", 105), ("default", 10), ("type", 162)],  -- 28: CommandInputParameter, 10692
  [("id", 77), ("label", 80), ("secondaryFiles", 99), ("streamable", 100), ("doc", 76), ("outputBinding", 114), ("format", 124), ("type", 164)],  -- 29: CommandOutputParameter, 11326
  [("id", 81), ("class", 166), ("inputs", 168), ("outputs", 170), ("requirements", 130), ("hints", 134), ("label", 80), ("doc", 80), ("cwlVersion", 136), ("baseCommand", 76), ("arguments", 173), ("stdin", 123), ("stderr", 123), ("stdout", 123), ("successCodes", 175), ("temporaryFailCodes", 175), ("permanentFailCodes", 175)],  -- 30: CommandLineTool, 11903
  [("class", 177), ("dockerPull", 80), ("dockerLoad", 80), ("dockerFile", 80), ("dockerImport", 80), ("dockerImageId", 80), ("dockerOutputDirectory", 80)],  -- 31: DockerRequirement, 12975
  [("class", 179), ("packages", 181)],  -- 32: SoftwareRequirement, 13483
  [("package", 0), ("version", 139), ("specs", 182)],  -- 33: SoftwarePackage, 13661
  [("entryname", 123), ("entry", 97), ("writable", 100)],  -- 34: Dirent, 13917
  [("class", 184), ("listing", 187)],  -- 35: InitialWorkDirRequirement, 14182
  [("class", 189), ("envDef", 191)],  -- 36: EnvVarRequirement, 14360
  [("class", 193)],  -- 37: ShellCommandRequirement, 14538
  [("class", 195), ("coresMin", 196), ("coresMax", 196), ("ramMin", 196), ("ramMax", 196), ("tmpdirMin", 196), ("tmpdirMax", 196), ("outdirMin", 196), ("outdirMax", 196)],  -- 38: ResourceRequirement, 14659
  [("id", 77), ("label", 80), ("secondaryFiles", 99), ("streamable", 100), ("doc", 76), ("outputBinding", 114), ("format", 124), ("type", 198)],  -- 39: ExpressionToolOutputParameter, 15272
  [("id", 81), ("class", 200), ("inputs", 126), ("outputs", 202), ("requirements", 130), ("hints", 134), ("label", 80), ("doc", 80), ("cwlVersion", 136), ("expression", 97)],  -- 40: ExpressionTool, 15844
  [("id", 77), ("label", 80), ("secondaryFiles", 99), ("streamable", 100), ("doc", 76), ("outputBinding", 114), ("format", 124), ("outputSource", 203), ("linkMerge", 204), ("type", 198)],  -- 41: WorkflowOutputParameter, 16509
  [("id", 77), ("source", 205), ("linkMerge", 204), ("default", 10), ("valueFrom", 123)],  -- 42: WorkflowStepInput, 17203
  [("id", 77)],  -- 43: WorkflowStepOutput, 17609
  [("id", 77), ("in", 207), ("out", 211), ("requirements", 130), ("hints", 214), ("label", 80), ("doc", 80), ("run", 216), ("scatter", 217), ("scatterMethod", 219)],  -- 44: WorkflowStep, 17767
  [("id", 81), ("class", 221), ("inputs", 126), ("outputs", 223), ("requirements", 130), ("hints", 134), ("label", 80), ("doc", 80), ("cwlVersion", 136), ("steps", 226)],  -- 45: Workflow, 18482
  [("class", 228)],  -- 46: SubworkflowFeatureRequirement, 19166
  [("class", 230)],  -- 47: ScatterFeatureRequirement, 19287
  [("class", 232)],  -- 48: MultipleInputFeatureRequirement, 19408
  [("class", 234)],  -- 49: StepInputExpressionRequirement, 19529
  [("class", 235), ("loadListing", 237)],  -- 50: LoadListingRequirement, 19650
  [("class", 235), ("inplaceUpdate", 3)],  -- 51: InplaceUpdateRequirement, 19828
  [("class", 235), ("secrets", 238)],  -- 52: Secrets, 20007
  [("class", 235), ("timelimit", 239)],  -- 53: TimeLimit, 20179
  [("class", 235), ("enableReuse", 240)],  -- 54: WorkReuse, 20362
  [("class", 235), ("networkAccess", 240)],  -- 55: NetworkAccess, 20547
  [("id", 81), ("class", 235), ("inputs", 126), ("outputs", 202), ("requirements", 130), ("hints", 134), ("label", 80), ("doc", 80), ("cwlVersion", 136), ("run", 216)],  -- 56: ProcessGenerator, 20737
  [("class", 235), ("processes", 241)],  -- 57: MPIRequirement, 21393
  [("class", 235), ("cudaComputeCapability", 242), ("cudaDeviceCountMax", 243), ("cudaDeviceCountMin", 243), ("cudaVersionMin", 0)],  -- 58: CUDARequirement, 21576
  [("class", 235), ("shmSize", 0)]]  -- 59: ShmSize, 21951

/-- The loaders of `cwl_v1_1.py`. -/
def ldrs11 : List Ldr := [
  .prim .str,  -- 0: 24339
  .prim .int,  -- 1: 24340
  .prim .float,  -- 2: 24341
  .prim .bool,  -- 3: 24342
  .prim .none,  -- 4: 24343
  .any,  -- 5: 24344
  .enum ["null", "boolean", "int", "long", "float", "double", "string", "File", "Directory"],  -- 6: 24395
  .record 3,  -- 7: 24419
  .record 4,  -- 8: 24420
  .union [3, 1, 2, 0, 7, 8, 11, 12],  -- 9: 24421
  .union [4, 9],  -- 10: 24422
  .array 10,  -- 11: 24428
  .map 10 false,  -- 12: 24431
  .record 14,  -- 13: 24434
  .record 15,  -- 14: 24437
  .record 17,  -- 15: 24438
  .record 32,  -- 16: 24439
  .record 33,  -- 17: 24440
  .record 36,  -- 18: 24441
  .record 37,  -- 19: 24444
  .record 38,  -- 20: 24445
  .record 39,  -- 21: 24448
  .record 40,  -- 22: 24449
  .record 41,  -- 23: 24450
  .record 42,  -- 24: 24451
  .record 43,  -- 25: 24454
  .record 52,  -- 26: 24455
  .record 53,  -- 27: 24458
  .record 54,  -- 28: 24461
  .record 55,  -- 29: 24464
  .record 56,  -- 30: 24467
  .record 58,  -- 31: 24468
  .record 59,  -- 32: 24469
  .record 60,  -- 33: 24470
  .union [13, 14, 15, 16, 17, 18, 19, 20, 21, 22, 23, 24, 25, 26, 27, 28, 29, 30, 31, 32, 33],  -- 34: 24471
  .proxy 34,  -- 35: 24498
  .array 35,  -- 36: 24499
  .union [4, 36, 9],  -- 37: 24500
  .map 37 true,  -- 38: 24509
  .enum ["v1.1"],  -- 39: 24520
  .enum ["no_listing", "shallow_listing", "deep_listing"],  -- 40: 24527
  .expression,  -- 41: 24549
  .record 5,  -- 42: 24550
  .record 6,  -- 43: 24554
  .record 7,  -- 44: 24555
  .record 8,  -- 45: 24556
  .record 9,  -- 46: 24557
  .record 10,  -- 47: 24558
  .record 11,  -- 48: 24559
  .record 12,  -- 49: 24560
  .record 13,  -- 50: 24561
  .proxy 146,  -- 51: 24565
  .record 16,  -- 52: 24566
  .record 18,  -- 53: 24567
  .record 19,  -- 54: 24568
  .record 20,  -- 55: 24569
  .record 21,  -- 56: 24571
  .record 22,  -- 57: 24574
  .record 23,  -- 58: 24577
  .record 24,  -- 59: 24578
  .record 25,  -- 60: 24581
  .record 26,  -- 61: 24584
  .record 27,  -- 62: 24587
  .record 28,  -- 63: 24590
  .record 29,  -- 64: 24593
  .record 30,  -- 65: 24594
  .enum ["stdin"],  -- 66: 24595
  .enum ["stdout"],  -- 67: 24619
  .enum ["stderr"],  -- 68: 24670
  .record 31,  -- 69: 24721
  .record 34,  -- 70: 24722
  .record 35,  -- 71: 24723
  .record 44,  -- 72: 24724
  .record 45,  -- 73: 24727
  .record 46,  -- 74: 24728
  .enum ["merge_nested", "merge_flattened"],  -- 75: 24729
  .record 47,  -- 76: 24739
  .record 48,  -- 77: 24743
  .record 49,  -- 78: 24744
  .enum ["dotproduct", "nested_crossproduct", "flat_crossproduct"],  -- 79: 24745
  .record 50,  -- 80: 24756
  .record 51,  -- 81: 24757
  .record 57,  -- 82: 24758
  .array 0,  -- 83: 24759
  .union [4, 0, 83],  -- 84: 24760
  .uri 0 true false none none,  -- 85: 24767
  .enum ["record"],  -- 86: 24817
  .typeDsl 86 (some 2),  -- 87: 24818
  .union [4, 0],  -- 88: 24819
  .uri 88 true false none none,  -- 89: 24825
  .uri 83 true false none none,  -- 90: 24828
  .enum ["enum"],  -- 91: 24831
  .typeDsl 91 (some 2),  -- 92: 24832
  .enum ["array"],  -- 93: 24842
  .typeDsl 93 (some 2),  -- 94: 24843
  .enum ["File"],  -- 95: 24902
  .uri 95 false true none none,  -- 96: 24903
  .uri 88 false false none none,  -- 97: 24906
  .union [4, 1],  -- 98: 24909
  .union [7, 8],  -- 99: 24915
  .array 99,  -- 100: 24921
  .union [4, 100],  -- 101: 24924
  .secondary 101,  -- 102: 24936
  .union [102, 101],  -- 103: 24932
  .uri 88 true false none (some true),  -- 104: 24942
  .enum ["Directory"],  -- 105: 24945
  .uri 105 false true none none,  -- 106: 24946
  .union [4, 3],  -- 107: 24949
  .union [4, 40],  -- 108: 24955
  .array 52,  -- 109: 24961
  .union [4, 52, 109],  -- 110: 24962
  .secondary 110,  -- 111: 24975
  .union [111, 110],  -- 112: 24971
  .union [4, 0, 83, 41],  -- 113: 24981
  .uri 113 true false none (some true),  -- 114: 24991
  .union [4, 0, 41],  -- 115: 25000
  .uri 115 true false none (some true),  -- 116: 25007
  .union [6, 44, 45, 46, 0],  -- 117: 25012
  .array 117,  -- 118: 25023
  .union [6, 44, 45, 46, 0, 118],  -- 119: 25028
  .typeDsl 119 (some 2),  -- 120: 25040
  .array 43,  -- 121: 25047
  .union [4, 121],  -- 122: 25048
  .idMap 122 "name" "type",  -- 123: 25054
  .uri 119 false true (some 2) none,  -- 124: 25057
  .union [6, 48, 49, 50, 0],  -- 125: 25066
  .array 125,  -- 126: 25077
  .union [6, 48, 49, 50, 0, 126],  -- 127: 25082
  .typeDsl 127 (some 2),  -- 128: 25094
  .array 47,  -- 129: 25101
  .union [4, 129],  -- 130: 25102
  .idMap 130 "name" "type",  -- 131: 25108
  .uri 127 false true (some 2) none,  -- 132: 25111
  .union [4, 36],  -- 133: 25145
  .idMap 133 "class" "None",  -- 134: 25151
  .union [13, 14, 15, 16, 17, 18, 19, 20, 21, 22, 23, 24, 25, 26, 27, 28, 29, 30, 31, 32, 33, 5],  -- 135: 25154
  .array 135,  -- 136: 25182
  .union [4, 136],  -- 137: 25187
  .idMap 137 "class" "None",  -- 138: 25195
  .union [4, 39],  -- 139: 25202
  .uri 139 false true none none,  -- 140: 25208
  .enum ["InlineJavascriptRequirement"],  -- 141: 25211
  .uri 141 false true none none,  -- 142: 25214
  .union [4, 83],  -- 143: 25217
  .enum ["SchemaDefRequirement"],  -- 144: 25223
  .uri 144 false true none none,  -- 145: 25226
  .union [57, 58, 59],  -- 146: 25229
  .array 51,  -- 147: 25238
  .union [0, 41],  -- 148: 25239
  .union [4, 3, 41],  -- 149: 25245
  .enum ["LoadListingRequirement"],  -- 150: 25252
  .uri 150 false true none none,  -- 151: 25255
  .union [4, 1, 41],  -- 152: 25258
  .union [4, 0, 41, 83],  -- 153: 25265
  .union [4, 41],  -- 154: 25275
  .union [4, 54],  -- 155: 25281
  .union [6, 57, 58, 59, 0],  -- 156: 25287
  .array 156,  -- 157: 25298
  .union [6, 57, 58, 59, 0, 157],  -- 158: 25303
  .typeDsl 158 (some 2),  -- 159: 25315
  .array 56,  -- 160: 25322
  .union [4, 160],  -- 161: 25325
  .idMap 161 "name" "type",  -- 162: 25331
  .uri 158 false true (some 2) none,  -- 163: 25336
  .union [6, 61, 62, 63, 0],  -- 164: 25345
  .array 164,  -- 165: 25356
  .union [6, 61, 62, 63, 0, 165],  -- 166: 25361
  .typeDsl 166 (some 2),  -- 167: 25373
  .union [4, 55],  -- 168: 25380
  .array 60,  -- 169: 25386
  .union [4, 169],  -- 170: 25389
  .idMap 170 "name" "type",  -- 171: 25395
  .uri 166 false true (some 2) none,  -- 172: 25400
  .union [6, 66, 57, 58, 59, 0, 157],  -- 173: 25409
  .typeDsl 173 (some 2),  -- 174: 25422
  .union [6, 67, 68, 61, 62, 63, 0, 165],  -- 175: 25429
  .typeDsl 175 (some 2),  -- 176: 25443
  .enum ["CommandLineTool"],  -- 177: 25450
  .uri 177 false true none none,  -- 178: 25453
  .array 64,  -- 179: 25456
  .idMap 179 "id" "type",  -- 180: 25457
  .array 65,  -- 181: 25460
  .idMap 181 "id" "type",  -- 182: 25463
  .union [0, 41, 54],  -- 183: 25466
  .array 183,  -- 184: 25473
  .union [4, 184],  -- 185: 25476
  .array 1,  -- 186: 25484
  .union [4, 186],  -- 187: 25485
  .enum ["DockerRequirement"],  -- 188: 25491
  .uri 188 false true none none,  -- 189: 25494
  .enum ["SoftwareRequirement"],  -- 190: 25497
  .uri 190 false true none none,  -- 191: 25500
  .array 70,  -- 192: 25503
  .idMap 192 "package" "specs",  -- 193: 25504
  .uri 143 false false none (some true),  -- 194: 25507
  .enum ["InitialWorkDirRequirement"],  -- 195: 25510
  .uri 195 false true none none,  -- 196: 25513
  .union [4, 7, 100, 8, 71, 41],  -- 197: 25516
  .array 197,  -- 198: 25528
  .union [198, 41],  -- 199: 25533
  .enum ["EnvVarRequirement"],  -- 200: 25541
  .uri 200 false true none none,  -- 201: 25544
  .array 53,  -- 202: 25547
  .idMap 202 "envName" "envValue",  -- 203: 25548
  .enum ["ShellCommandRequirement"],  -- 204: 25551
  .uri 204 false true none none,  -- 205: 25554
  .enum ["ResourceRequirement"],  -- 206: 25557
  .uri 206 false true none none,  -- 207: 25560
  .enum ["WorkReuse"],  -- 208: 25563
  .uri 208 false true none none,  -- 209: 25564
  .union [3, 41],  -- 210: 25567
  .enum ["NetworkAccess"],  -- 211: 25573
  .uri 211 false true none none,  -- 212: 25576
  .enum ["InplaceUpdateRequirement"],  -- 213: 25579
  .uri 213 false true none none,  -- 214: 25582
  .enum ["ToolTimeLimit"],  -- 215: 25585
  .uri 215 false true none none,  -- 216: 25588
  .union [1, 41],  -- 217: 25591
  .union [4, 42],  -- 218: 25597
  .enum ["ExpressionTool"],  -- 219: 25603
  .uri 219 false true none none,  -- 220: 25606
  .array 73,  -- 221: 25609
  .idMap 221 "id" "type",  -- 222: 25612
  .array 72,  -- 223: 25615
  .idMap 223 "id" "type",  -- 224: 25618
  .uri 84 false false (some 1) none,  -- 225: 25621
  .union [4, 75],  -- 226: 25624
  .uri 84 false false (some 2) none,  -- 227: 25630
  .array 77,  -- 228: 25633
  .idMap 228 "id" "source",  -- 229: 25634
  .union [0, 78],  -- 230: 25637
  .array 230,  -- 231: 25643
  .union [231],  -- 232: 25646
  .uri 232 true false none none,  -- 233: 25649
  .array 5,  -- 234: 25658
  .union [4, 234],  -- 235: 25659
  .idMap 235 "class" "None",  -- 236: 25665
  .union [0, 69, 74, 81, 82],  -- 237: 25668
  .uri 237 false false none none,  -- 238: 25679
  .uri 84 false false (some 0) none,  -- 239: 25688
  .union [4, 79],  -- 240: 25691
  .uri 240 false true none none,  -- 241: 25697
  .enum ["Workflow"],  -- 242: 25700
  .uri 242 false true none none,  -- 243: 25701
  .array 76,  -- 244: 25704
  .idMap 244 "id" "type",  -- 245: 25707
  .array 80,  -- 246: 25710
  .union [246],  -- 247: 25711
  .idMap 247 "id" "None",  -- 248: 25714
  .enum ["SubworkflowFeatureRequirement"],  -- 249: 25717
  .uri 249 false true none none,  -- 250: 25720
  .enum ["ScatterFeatureRequirement"],  -- 251: 25723
  .uri 251 false true none none,  -- 252: 25726
  .enum ["MultipleInputFeatureRequirement"],  -- 253: 25729
  .uri 253 false true none none,  -- 254: 25732
  .enum ["StepInputExpressionRequirement"],  -- 255: 25735
  .uri 255 false true none none,  -- 256: 25738
  .uri 0 false true none none,  -- 257: 25741
  .uri 83 false false (some 0) none,  -- 258: 25742
  .union [0, 83],  -- 259: 25745
  .union [69, 74, 81, 82],  -- 260: 25751
  .array 260,  -- 261: 25761
  .union [69, 74, 81, 82, 261]]  -- 262: 25766

/-- The loaders of the fields of the classes of `cwl_v1_1.py`. -/
def fields11 : List (List (String × Nat)) := [
  [],  -- 0: CWLArraySchema, 857
  [],  -- 1: CWLRecordField, 1056
  [],  -- 2: CWLRecordSchema, 1324
  [("class", 96), ("location", 97), ("path", 97), ("basename", 88), ("dirname", 88), ("nameroot", 88), ("nameext", 88), ("checksum", 88), ("size", 98), ("secondaryFiles", 103), ("format", 104), ("contents", 88)],  -- 3: File, 1523
  [("class", 106), ("location", 97), ("path", 97), ("basename", 88), ("listing", 101)],  -- 4: Directory, 2305
  [("loadContents", 107)],  -- 5: InputBinding, 2707
  [("name", 85), ("doc", 84), ("type", 120), ("label", 88), ("secondaryFiles", 112), ("streamable", 107), ("format", 114), ("loadContents", 107), ("loadListing", 108)],  -- 6: InputRecordField, 2866
  [("name", 89), ("fields", 123), ("type", 87), ("label", 88), ("doc", 84)],  -- 7: InputRecordSchema, 3499
  [("name", 89), ("symbols", 90), ("type", 92), ("label", 88), ("doc", 84)],  -- 8: InputEnumSchema, 3879
  [("name", 89), ("items", 124), ("type", 94), ("label", 88), ("doc", 84)],  -- 9: InputArraySchema, 4259
  [("name", 85), ("doc", 84), ("type", 128), ("label", 88), ("secondaryFiles", 112), ("streamable", 107), ("format", 116)],  -- 10: OutputRecordField, 4639
  [("name", 89), ("fields", 131), ("type", 87), ("label", 88), ("doc", 84)],  -- 11: OutputRecordSchema, 5144
  [("name", 89), ("symbols", 90), ("type", 92), ("label", 88), ("doc", 84)],  -- 12: OutputEnumSchema, 5524
  [("name", 89), ("items", 132), ("type", 94), ("label", 88), ("doc", 84)],  -- 13: OutputArraySchema, 5904
  [("class", 142), ("expressionLib", 143)],  -- 14: InlineJavascriptRequirement, 6312
  [("class", 145), ("types", 147)],  -- 15: SchemaDefRequirement, 6499
  [("pattern", 148), ("required", 149)],  -- 16: SecondaryFileSchema, 6677
  [("class", 151), ("loadListing", 108)],  -- 17: LoadListingRequirement, 6878
  [("envName", 0), ("envValue", 148)],  -- 18: EnvironmentDef, 7060
  [("loadContents", 107), ("position", 152), ("prefix", 88), ("separate", 107), ("itemSeparator", 88), ("valueFrom", 115), ("shellQuote", 107)],  -- 19: CommandLineBinding, 7267
  [("loadContents", 107), ("loadListing", 108), ("glob", 153), ("outputEval", 154)],  -- 20: CommandOutputBinding, 7798
  [("name", 85), ("doc", 84), ("type", 159), ("label", 88), ("secondaryFiles", 112), ("streamable", 107), ("format", 114), ("loadContents", 107), ("loadListing", 108), ("inputBinding", 155)],  -- 21: CommandInputRecordField, 8136
  [("name", 89), ("fields", 162), ("type", 87), ("label", 88), ("doc", 84), ("inputBinding", 155)],  -- 22: CommandInputRecordSchema, 8829
  [("name", 89), ("symbols", 90), ("type", 92), ("label", 88), ("doc", 84), ("inputBinding", 155)],  -- 23: CommandInputEnumSchema, 9278
  [("name", 89), ("items", 163), ("type", 94), ("label", 88), ("doc", 84), ("inputBinding", 155)],  -- 24: CommandInputArraySchema, 9725
  [("name", 85), ("doc", 84), ("type", 167), ("label", 88), ("secondaryFiles", 112), ("streamable", 107), ("format", 116), ("outputBinding", 168)],  -- 25: CommandOutputRecordField, 10167
  [("name", 89), ("fields", 171), ("type", 87), ("label", 88), ("doc", 84)],  -- 26: CommandOutputRecordSchema, 10740
  [("name", 89), ("symbols", 90), ("type", 92), ("label", 88), ("doc", 84)],  -- 27: CommandOutputEnumSchema, 11120
  [("name", 89), ("items", 172), ("type", 94), ("label", 88), ("doc", 84)],  -- 28: CommandOutputArraySchema, 11500
  [("id", 85), ("label", 88), ("secondaryFiles", 112), ("streamable", 107), ("doc", 84), ("format", 114), ("loadContents", 107), ("loadListing", 108), ("default", 10), ("type", 174), ("inputBinding", 155)],  -- 29: CommandInputParameter, 11880
  [("id", 85), ("label", 88), ("secondaryFiles", 112), ("streamable", 107), ("doc", 84), ("format", 116), ("type", 176), ("outputBinding", 168)],  -- 30: CommandOutputParameter, 12635
  [("id", 89), ("class", 178), ("label", 88), ("doc", 84), ("inputs", 180), ("outputs", 182), ("requirements", 134), ("hints", 138), ("cwlVersion", 140), ("baseCommand", 84), ("arguments", 185), ("stdin", 115), ("stderr", 115), ("stdout", 115), ("successCodes", 187), ("temporaryFailCodes", 187), ("permanentFailCodes", 187)],  -- 31: CommandLineTool, 13213
  [("class", 189), ("dockerPull", 88), ("dockerLoad", 88), ("dockerFile", 88), ("dockerImport", 88), ("dockerImageId", 88), ("dockerOutputDirectory", 88)],  -- 32: DockerRequirement, 14285
  [("class", 191), ("packages", 193)],  -- 33: SoftwareRequirement, 14797
  [("package", 0), ("version", 143), ("specs", 194)],  -- 34: SoftwarePackage, 14975
  [("entryname", 115), ("entry", 148), ("writable", 107)],  -- 35: Dirent, 15231
  [("class", 196), ("listing", 199)],  -- 36: InitialWorkDirRequirement, 15496
  [("class", 201), ("envDef", 203)],  -- 37: EnvVarRequirement, 15674
  [("class", 205)],  -- 38: ShellCommandRequirement, 15852
  [("class", 207), ("coresMin", 152), ("coresMax", 152), ("ramMin", 152), ("ramMax", 152), ("tmpdirMin", 152), ("tmpdirMax", 152), ("outdirMin", 152), ("outdirMax", 152)],  -- 39: ResourceRequirement, 15973
  [("class", 209), ("enableReuse", 210)],  -- 40: WorkReuse, 16586
  [("class", 212), ("networkAccess", 210)],  -- 41: NetworkAccess, 16771
  [("class", 214), ("inplaceUpdate", 3)],  -- 42: InplaceUpdateRequirement, 16961
  [("class", 216), ("timelimit", 217)],  -- 43: ToolTimeLimit, 17153
  [("id", 85), ("label", 88), ("secondaryFiles", 112), ("streamable", 107), ("doc", 84), ("format", 116), ("type", 128)],  -- 44: ExpressionToolOutputParameter, 17336
  [("id", 85), ("label", 88), ("secondaryFiles", 112), ("streamable", 107), ("doc", 84), ("format", 114), ("loadContents", 107), ("loadListing", 108), ("default", 10), ("type", 120), ("inputBinding", 218)],  -- 45: WorkflowInputParameter, 17841
  [("id", 89), ("class", 220), ("label", 88), ("doc", 84), ("inputs", 222), ("outputs", 224), ("requirements", 134), ("hints", 138), ("cwlVersion", 140), ("expression", 41)],  -- 46: ExpressionTool, 18591
  [("id", 85), ("label", 88), ("secondaryFiles", 112), ("streamable", 107), ("doc", 84), ("format", 116), ("outputSource", 225), ("linkMerge", 226), ("type", 128)],  -- 47: WorkflowOutputParameter, 19256
  [("id", 85), ("source", 227), ("linkMerge", 226), ("loadContents", 107), ("loadListing", 108), ("label", 88), ("default", 10), ("valueFrom", 115)],  -- 48: WorkflowStepInput, 19891
  [("id", 85)],  -- 49: WorkflowStepOutput, 20486
  [("id", 85), ("label", 88), ("doc", 84), ("in", 229), ("out", 233), ("requirements", 134), ("hints", 236), ("run", 238), ("scatter", 239), ("scatterMethod", 241)],  -- 50: WorkflowStep, 20646
  [("id", 89), ("class", 243), ("label", 88), ("doc", 84), ("inputs", 222), ("outputs", 245), ("requirements", 134), ("hints", 138), ("cwlVersion", 140), ("steps", 248)],  -- 51: Workflow, 21363
  [("class", 250)],  -- 52: SubworkflowFeatureRequirement, 22047
  [("class", 252)],  -- 53: ScatterFeatureRequirement, 22168
  [("class", 254)],  -- 54: MultipleInputFeatureRequirement, 22289
  [("class", 256)],  -- 55: StepInputExpressionRequirement, 22410
  [("class", 257), ("secrets", 258)],  -- 56: Secrets, 22531
  [("id", 89), ("class", 257), ("label", 88), ("doc", 84), ("inputs", 222), ("outputs", 224), ("requirements", 134), ("hints", 138), ("cwlVersion", 140), ("run", 238)],  -- 57: ProcessGenerator, 22703
  [("class", 257), ("processes", 217)],  -- 58: MPIRequirement, 23361
  [("class", 257), ("cudaComputeCapability", 259), ("cudaDeviceCountMax", 152), ("cudaDeviceCountMin", 152), ("cudaVersionMin", 0)],  -- 59: CUDARequirement, 23544
  [("class", 257), ("shmSize", 0)]]  -- 60: ShmSize, 23919

/-- The loaders of `cwl_v1_2.py`. -/
def ldrs12 : List Ldr := [
  .prim .str,  -- 0: 27453
  .prim .int,  -- 1: 27454
  .prim .float,  -- 2: 27455
  .prim .bool,  -- 3: 27456
  .prim .none,  -- 4: 27457
  .any,  -- 5: 27458
  .enum ["null", "boolean", "int", "long", "float", "double", "string", "File", "Directory"],  -- 6: 27509
  .record 3,  -- 7: 27533
  .record 4,  -- 8: 27534
  .union [3, 1, 2, 0, 7, 8, 11, 12],  -- 9: 27535
  .union [4, 9],  -- 10: 27536
  .array 10,  -- 11: 27542
  .map 10 false,  -- 12: 27545
  .record 14,  -- 13: 27548
  .record 15,  -- 14: 27551
  .record 17,  -- 15: 27552
  .record 32,  -- 16: 27553
  .record 33,  -- 17: 27554
  .record 36,  -- 18: 27555
  .record 37,  -- 19: 27558
  .record 38,  -- 20: 27559
  .record 39,  -- 21: 27562
  .record 40,  -- 22: 27563
  .record 41,  -- 23: 27564
  .record 42,  -- 24: 27565
  .record 43,  -- 25: 27568
  .record 52,  -- 26: 27569
  .record 53,  -- 27: 27572
  .record 54,  -- 28: 27575
  .record 55,  -- 29: 27578
  .record 59,  -- 30: 27581
  .record 61,  -- 31: 27582
  .record 62,  -- 32: 27583
  .record 64,  -- 33: 27584
  .record 65,  -- 34: 27585
  .union [13, 14, 15, 16, 17, 18, 19, 20, 21, 22, 23, 24, 25, 26, 27, 28, 29, 30, 31, 32, 33, 34],  -- 35: 27586
  .proxy 35,  -- 36: 27614
  .array 36,  -- 37: 27615
  .union [4, 37, 9],  -- 38: 27616
  .map 38 true,  -- 39: 27625
  .enum ["v1.2"],  -- 40: 27636
  .enum ["no_listing", "shallow_listing", "deep_listing"],  -- 41: 27643
  .expression,  -- 42: 27665
  .record 5,  -- 43: 27666
  .record 6,  -- 44: 27670
  .record 7,  -- 45: 27671
  .record 8,  -- 46: 27672
  .record 9,  -- 47: 27673
  .record 10,  -- 48: 27674
  .record 11,  -- 49: 27675
  .record 12,  -- 50: 27676
  .record 13,  -- 51: 27677
  .proxy 153,  -- 52: 27681
  .record 16,  -- 53: 27682
  .record 18,  -- 54: 27683
  .record 19,  -- 55: 27684
  .record 20,  -- 56: 27685
  .record 21,  -- 57: 27687
  .record 22,  -- 58: 27690
  .record 23,  -- 59: 27693
  .record 24,  -- 60: 27694
  .record 25,  -- 61: 27697
  .record 26,  -- 62: 27700
  .record 27,  -- 63: 27703
  .record 28,  -- 64: 27706
  .record 29,  -- 65: 27709
  .record 30,  -- 66: 27710
  .enum ["stdin"],  -- 67: 27711
  .enum ["stdout"],  -- 68: 27735
  .enum ["stderr"],  -- 69: 27789
  .record 31,  -- 70: 27840
  .record 34,  -- 71: 27841
  .record 35,  -- 72: 27842
  .record 44,  -- 73: 27843
  .record 45,  -- 74: 27846
  .record 46,  -- 75: 27847
  .enum ["merge_nested", "merge_flattened"],  -- 76: 27848
  .enum ["first_non_null", "the_only_non_null", "all_non_null"],  -- 77: 27858
  .record 47,  -- 78: 27869
  .record 48,  -- 79: 27873
  .record 49,  -- 80: 27874
  .enum ["dotproduct", "nested_crossproduct", "flat_crossproduct"],  -- 81: 27875
  .record 50,  -- 82: 27886
  .record 51,  -- 83: 27887
  .record 56,  -- 84: 27888
  .record 57,  -- 85: 27891
  .record 58,  -- 86: 27894
  .record 60,  -- 87: 27895
  .record 63,  -- 88: 27896
  .array 0,  -- 89: 27897
  .union [4, 0, 89],  -- 90: 27898
  .uri 0 true false none none,  -- 91: 27905
  .enum ["record"],  -- 92: 27955
  .typeDsl 92 (some 2),  -- 93: 27956
  .union [4, 0],  -- 94: 27957
  .uri 94 true false none none,  -- 95: 27963
  .uri 89 true false none none,  -- 96: 27966
  .enum ["enum"],  -- 97: 27969
  .typeDsl 97 (some 2),  -- 98: 27970
  .enum ["array"],  -- 99: 27980
  .typeDsl 99 (some 2),  -- 100: 27981
  .enum ["File"],  -- 101: 28040
  .uri 101 false true none none,  -- 102: 28041
  .uri 94 false false none none,  -- 103: 28044
  .union [4, 1],  -- 104: 28047
  .union [7, 8],  -- 105: 28053
  .array 105,  -- 106: 28059
  .union [4, 106],  -- 107: 28062
  .secondary 107,  -- 108: 28074
  .union [108, 107],  -- 109: 28070
  .uri 94 true false none (some true),  -- 110: 28080
  .enum ["Directory"],  -- 111: 28083
  .uri 111 false true none none,  -- 112: 28084
  .union [4, 3],  -- 113: 28087
  .union [4, 41],  -- 114: 28093
  .array 53,  -- 115: 28099
  .union [4, 53, 115],  -- 116: 28100
  .secondary 116,  -- 117: 28113
  .union [117, 116],  -- 118: 28109
  .union [4, 0, 89, 42],  -- 119: 28119
  .uri 119 true false none (some true),  -- 120: 28129
  .union [4, 0, 42],  -- 121: 28138
  .uri 121 true false none (some true),  -- 122: 28145
  .union [6, 45, 46, 47, 0],  -- 123: 28150
  .array 123,  -- 124: 28161
  .union [6, 45, 46, 47, 0, 124],  -- 125: 28166
  .typeDsl 125 (some 2),  -- 126: 28178
  .array 44,  -- 127: 28185
  .union [4, 127],  -- 128: 28186
  .idMap 128 "name" "type",  -- 129: 28192
  .uri 125 false true (some 2) none,  -- 130: 28195
  .union [6, 49, 50, 51, 0],  -- 131: 28204
  .array 131,  -- 132: 28215
  .union [6, 49, 50, 51, 0, 132],  -- 133: 28220
  .typeDsl 133 (some 2),  -- 134: 28232
  .array 48,  -- 135: 28239
  .union [4, 135],  -- 136: 28240
  .idMap 136 "name" "type",  -- 137: 28246
  .uri 133 false true (some 2) none,  -- 138: 28249
  .union [4, 37],  -- 139: 28285
  .idMap 139 "class" "None",  -- 140: 28291
  .union [13, 14, 15, 16, 17, 18, 19, 20, 21, 22, 23, 24, 25, 26, 27, 28, 29, 30, 31, 32, 33, 34, 5],  -- 141: 28294
  .array 141,  -- 142: 28323
  .union [4, 142],  -- 143: 28328
  .idMap 143 "class" "None",  -- 144: 28336
  .union [4, 40],  -- 145: 28343
  .uri 145 false true none none,  -- 146: 28349
  .union [4, 89],  -- 147: 28352
  .uri 147 true false none none,  -- 148: 28358
  .enum ["InlineJavascriptRequirement"],  -- 149: 28361
  .uri 149 false true none none,  -- 150: 28364
  .enum ["SchemaDefRequirement"],  -- 151: 28367
  .uri 151 false true none none,  -- 152: 28370
  .union [58, 59, 60],  -- 153: 28373
  .array 52,  -- 154: 28382
  .union [0, 42],  -- 155: 28383
  .union [4, 3, 42],  -- 156: 28389
  .enum ["LoadListingRequirement"],  -- 157: 28396
  .uri 157 false true none none,  -- 158: 28399
  .union [4, 1, 42],  -- 159: 28402
  .union [4, 0, 42, 89],  -- 160: 28409
  .union [4, 42],  -- 161: 28419
  .union [4, 55],  -- 162: 28425
  .union [6, 58, 59, 60, 0],  -- 163: 28431
  .array 163,  -- 164: 28442
  .union [6, 58, 59, 60, 0, 164],  -- 165: 28447
  .typeDsl 165 (some 2),  -- 166: 28459
  .array 57,  -- 167: 28466
  .union [4, 167],  -- 168: 28469
  .idMap 168 "name" "type",  -- 169: 28475
  .uri 165 false true (some 2) none,  -- 170: 28480
  .union [6, 62, 63, 64, 0],  -- 171: 28489
  .array 171,  -- 172: 28500
  .union [6, 62, 63, 64, 0, 172],  -- 173: 28505
  .typeDsl 173 (some 2),  -- 174: 28517
  .union [4, 56],  -- 175: 28524
  .array 61,  -- 176: 28530
  .union [4, 176],  -- 177: 28533
  .idMap 177 "name" "type",  -- 178: 28539
  .uri 173 false true (some 2) none,  -- 179: 28544
  .union [6, 67, 58, 59, 60, 0, 164],  -- 180: 28553
  .typeDsl 180 (some 2),  -- 181: 28566
  .union [6, 68, 69, 62, 63, 64, 0, 172],  -- 182: 28573
  .typeDsl 182 (some 2),  -- 183: 28587
  .enum ["CommandLineTool"],  -- 184: 28594
  .uri 184 false true none none,  -- 185: 28597
  .array 65,  -- 186: 28600
  .idMap 186 "id" "type",  -- 187: 28601
  .array 66,  -- 188: 28604
  .idMap 188 "id" "type",  -- 189: 28607
  .union [0, 42, 55],  -- 190: 28610
  .array 190,  -- 191: 28617
  .union [4, 191],  -- 192: 28620
  .array 1,  -- 193: 28628
  .union [4, 193],  -- 194: 28629
  .enum ["DockerRequirement"],  -- 195: 28635
  .uri 195 false true none none,  -- 196: 28638
  .enum ["SoftwareRequirement"],  -- 197: 28641
  .uri 197 false true none none,  -- 198: 28644
  .array 71,  -- 199: 28647
  .idMap 199 "package" "specs",  -- 200: 28648
  .uri 147 false false none (some true),  -- 201: 28651
  .enum ["InitialWorkDirRequirement"],  -- 202: 28654
  .uri 202 false true none none,  -- 203: 28657
  .union [4, 72, 42, 7, 8, 106],  -- 204: 28660
  .array 204,  -- 205: 28672
  .union [42, 205],  -- 206: 28677
  .enum ["EnvVarRequirement"],  -- 207: 28685
  .uri 207 false true none none,  -- 208: 28688
  .array 54,  -- 209: 28691
  .idMap 209 "envName" "envValue",  -- 210: 28692
  .enum ["ShellCommandRequirement"],  -- 211: 28695
  .uri 211 false true none none,  -- 212: 28698
  .enum ["ResourceRequirement"],  -- 213: 28701
  .uri 213 false true none none,  -- 214: 28704
  .union [4, 1, 2, 42],  -- 215: 28707
  .enum ["WorkReuse"],  -- 216: 28715
  .uri 216 false true none none,  -- 217: 28716
  .union [3, 42],  -- 218: 28719
  .enum ["NetworkAccess"],  -- 219: 28725
  .uri 219 false true none none,  -- 220: 28728
  .enum ["InplaceUpdateRequirement"],  -- 221: 28731
  .uri 221 false true none none,  -- 222: 28734
  .enum ["ToolTimeLimit"],  -- 223: 28737
  .uri 223 false true none none,  -- 224: 28740
  .union [1, 42],  -- 225: 28743
  .union [4, 43],  -- 226: 28749
  .enum ["ExpressionTool"],  -- 227: 28755
  .uri 227 false true none none,  -- 228: 28758
  .array 74,  -- 229: 28761
  .idMap 229 "id" "type",  -- 230: 28764
  .array 73,  -- 231: 28767
  .idMap 231 "id" "type",  -- 232: 28770
  .uri 90 false false (some 1) none,  -- 233: 28773
  .union [4, 76],  -- 234: 28776
  .union [4, 77],  -- 235: 28782
  .uri 90 false false (some 2) none,  -- 236: 28788
  .array 79,  -- 237: 28791
  .idMap 237 "id" "source",  -- 238: 28792
  .union [0, 80],  -- 239: 28795
  .array 239,  -- 240: 28801
  .union [240],  -- 241: 28804
  .uri 241 true false none none,  -- 242: 28807
  .array 5,  -- 243: 28816
  .union [4, 243],  -- 244: 28817
  .idMap 244 "class" "None",  -- 245: 28823
  .union [0, 70, 75, 83, 86, 87],  -- 246: 28826
  .uri 246 false false none none,  -- 247: 28838
  .uri 90 false false (some 0) none,  -- 248: 28847
  .union [4, 81],  -- 249: 28850
  .uri 249 false true none none,  -- 250: 28856
  .enum ["Workflow"],  -- 251: 28859
  .uri 251 false true none none,  -- 252: 28860
  .array 78,  -- 253: 28863
  .idMap 253 "id" "type",  -- 254: 28866
  .array 82,  -- 255: 28869
  .union [255],  -- 256: 28870
  .idMap 256 "id" "None",  -- 257: 28873
  .enum ["SubworkflowFeatureRequirement"],  -- 258: 28876
  .uri 258 false true none none,  -- 259: 28879
  .enum ["ScatterFeatureRequirement"],  -- 260: 28882
  .uri 260 false true none none,  -- 261: 28885
  .enum ["MultipleInputFeatureRequirement"],  -- 262: 28888
  .uri 262 false true none none,  -- 263: 28891
  .enum ["StepInputExpressionRequirement"],  -- 264: 28894
  .uri 264 false true none none,  -- 265: 28897
  .enum ["Operation"],  -- 266: 28900
  .uri 266 false true none none,  -- 267: 28901
  .array 84,  -- 268: 28904
  .idMap 268 "id" "type",  -- 269: 28907
  .array 85,  -- 270: 28910
  .idMap 270 "id" "type",  -- 271: 28913
  .uri 0 false true none none,  -- 272: 28916
  .uri 89 false false (some 0) none,  -- 273: 28917
  .union [0, 89],  -- 274: 28920
  .union [4, 5],  -- 275: 28926
  .array 88,  -- 276: 28932
  .idMap 276 "id" "loopSource",  -- 277: 28933
  .enum ["last", "all"],  -- 278: 28936
  .union [70, 75, 83, 86, 87],  -- 279: 28943
  .array 279,  -- 280: 28954
  .union [70, 75, 83, 86, 87, 280]]  -- 281: 28959

/-- The loaders of the fields of the classes of `cwl_v1_2.py`. -/
def fields12 : List (List (String × Nat)) := [
  [],  -- 0: CWLArraySchema, 857
  [],  -- 1: CWLRecordField, 1056
  [],  -- 2: CWLRecordSchema, 1324
  [("class", 102), ("location", 103), ("path", 103), ("basename", 94), ("dirname", 94), ("nameroot", 94), ("nameext", 94), ("checksum", 94), ("size", 104), ("secondaryFiles", 109), ("format", 110), ("contents", 94)],  -- 3: File, 1523
  [("class", 112), ("location", 103), ("path", 103), ("basename", 94), ("listing", 107)],  -- 4: Directory, 2305
  [("loadContents", 113)],  -- 5: InputBinding, 2707
  [("name", 91), ("doc", 90), ("type", 126), ("label", 94), ("secondaryFiles", 118), ("streamable", 113), ("format", 120), ("loadContents", 113), ("loadListing", 114)],  -- 6: InputRecordField, 2866
  [("name", 95), ("fields", 129), ("type", 93), ("label", 94), ("doc", 90)],  -- 7: InputRecordSchema, 3499
  [("name", 95), ("symbols", 96), ("type", 98), ("label", 94), ("doc", 90)],  -- 8: InputEnumSchema, 3879
  [("name", 95), ("items", 130), ("type", 100), ("label", 94), ("doc", 90)],  -- 9: InputArraySchema, 4259
  [("name", 91), ("doc", 90), ("type", 134), ("label", 94), ("secondaryFiles", 118), ("streamable", 113), ("format", 122)],  -- 10: OutputRecordField, 4639
  [("name", 95), ("fields", 137), ("type", 93), ("label", 94), ("doc", 90)],  -- 11: OutputRecordSchema, 5144
  [("name", 95), ("symbols", 96), ("type", 98), ("label", 94), ("doc", 90)],  -- 12: OutputEnumSchema, 5524
  [("name", 95), ("items", 138), ("type", 100), ("label", 94), ("doc", 90)],  -- 13: OutputArraySchema, 5904
  [("class", 150), ("expressionLib", 147)],  -- 14: InlineJavascriptRequirement, 6312
  [("class", 152), ("types", 154)],  -- 15: SchemaDefRequirement, 6499
  [("pattern", 155), ("required", 156)],  -- 16: SecondaryFileSchema, 6681
  [("class", 158), ("loadListing", 114)],  -- 17: LoadListingRequirement, 6894
  [("envName", 0), ("envValue", 155)],  -- 18: EnvironmentDef, 7076
  [("loadContents", 113), ("position", 159), ("prefix", 94), ("separate", 113), ("itemSeparator", 94), ("valueFrom", 121), ("shellQuote", 113)],  -- 19: CommandLineBinding, 7283
  [("loadContents", 113), ("loadListing", 114), ("glob", 160), ("outputEval", 161)],  -- 20: CommandOutputBinding, 7814
  [("name", 91), ("doc", 90), ("type", 166), ("label", 94), ("secondaryFiles", 118), ("streamable", 113), ("format", 120), ("loadContents", 113), ("loadListing", 114), ("inputBinding", 162)],  -- 21: CommandInputRecordField, 8152
  [("name", 95), ("fields", 169), ("type", 93), ("label", 94), ("doc", 90), ("inputBinding", 162)],  -- 22: CommandInputRecordSchema, 8845
  [("name", 95), ("symbols", 96), ("type", 98), ("label", 94), ("doc", 90), ("inputBinding", 162)],  -- 23: CommandInputEnumSchema, 9294
  [("name", 95), ("items", 170), ("type", 100), ("label", 94), ("doc", 90), ("inputBinding", 162)],  -- 24: CommandInputArraySchema, 9741
  [("name", 91), ("doc", 90), ("type", 174), ("label", 94), ("secondaryFiles", 118), ("streamable", 113), ("format", 122), ("outputBinding", 175)],  -- 25: CommandOutputRecordField, 10183
  [("name", 95), ("fields", 178), ("type", 93), ("label", 94), ("doc", 90)],  -- 26: CommandOutputRecordSchema, 10756
  [("name", 95), ("symbols", 96), ("type", 98), ("label", 94), ("doc", 90)],  -- 27: CommandOutputEnumSchema, 11136
  [("name", 95), ("items", 179), ("type", 100), ("label", 94), ("doc", 90)],  -- 28: CommandOutputArraySchema, 11516
  [("id", 91), ("label", 94), ("secondaryFiles", 118), ("streamable", 113), ("doc", 90), ("format", 120), ("loadContents", 113), ("loadListing", 114), ("default", 10), ("type", 181), ("inputBinding", 162)],  -- 29: CommandInputParameter, 11896
  [("id", 91), ("label", 94), ("secondaryFiles", 118), ("streamable", 113), ("doc", 90), ("format", 122), ("type", 183), ("outputBinding", 175)],  -- 30: CommandOutputParameter, 12651
  [("id", 95), ("class", 185), ("label", 94), ("doc", 90), ("inputs", 187), ("outputs", 189), ("requirements", 140), ("hints", 144), ("cwlVersion", 146), ("intent", 148), ("baseCommand", 90), ("arguments", 192), ("stdin", 121), ("stderr", 121), ("stdout", 121), ("successCodes", 194), ("temporaryFailCodes", 194), ("permanentFailCodes", 194)],  -- 31: CommandLineTool, 13229
  [("class", 196), ("dockerPull", 94), ("dockerLoad", 94), ("dockerFile", 94), ("dockerImport", 94), ("dockerImageId", 94), ("dockerOutputDirectory", 94)],  -- 32: DockerRequirement, 14357
  [("class", 198), ("packages", 200)],  -- 33: SoftwareRequirement, 14869
  [("package", 0), ("version", 147), ("specs", 201)],  -- 34: SoftwarePackage, 15047
  [("entryname", 121), ("entry", 155), ("writable", 113)],  -- 35: Dirent, 15303
  [("class", 203), ("listing", 206)],  -- 36: InitialWorkDirRequirement, 15570
  [("class", 208), ("envDef", 210)],  -- 37: EnvVarRequirement, 15748
  [("class", 212)],  -- 38: ShellCommandRequirement, 15926
  [("class", 214), ("coresMin", 215), ("coresMax", 215), ("ramMin", 215), ("ramMax", 215), ("tmpdirMin", 215), ("tmpdirMax", 215), ("outdirMin", 215), ("outdirMax", 215)],  -- 39: ResourceRequirement, 16047
  [("class", 217), ("enableReuse", 218)],  -- 40: WorkReuse, 16662
  [("class", 220), ("networkAccess", 218)],  -- 41: NetworkAccess, 16847
  [("class", 222), ("inplaceUpdate", 3)],  -- 42: InplaceUpdateRequirement, 17037
  [("class", 224), ("timelimit", 225)],  -- 43: ToolTimeLimit, 17229
  [("id", 91), ("label", 94), ("secondaryFiles", 118), ("streamable", 113), ("doc", 90), ("format", 122), ("type", 134)],  -- 44: ExpressionToolOutputParameter, 17412
  [("id", 91), ("label", 94), ("secondaryFiles", 118), ("streamable", 113), ("doc", 90), ("format", 120), ("loadContents", 113), ("loadListing", 114), ("default", 10), ("type", 126), ("inputBinding", 226)],  -- 45: WorkflowInputParameter, 17917
  [("id", 95), ("class", 228), ("label", 94), ("doc", 90), ("inputs", 230), ("outputs", 232), ("requirements", 140), ("hints", 144), ("cwlVersion", 146), ("intent", 148), ("expression", 42)],  -- 46: ExpressionTool, 18667
  [("id", 91), ("label", 94), ("secondaryFiles", 118), ("streamable", 113), ("doc", 90), ("format", 122), ("outputSource", 233), ("linkMerge", 234), ("pickValue", 235), ("type", 134)],  -- 47: WorkflowOutputParameter, 19388
  [("id", 91), ("source", 236), ("linkMerge", 234), ("pickValue", 235), ("loadContents", 113), ("loadListing", 114), ("label", 94), ("default", 10), ("valueFrom", 121)],  -- 48: WorkflowStepInput, 20082
  [("id", 91)],  -- 49: WorkflowStepOutput, 20783
  [("id", 91), ("label", 94), ("doc", 90), ("in", 238), ("out", 242), ("requirements", 140), ("hints", 245), ("run", 247), ("when", 161), ("scatter", 248), ("scatterMethod", 250)],  -- 50: WorkflowStep, 20943
  [("id", 95), ("class", 252), ("label", 94), ("doc", 90), ("inputs", 230), ("outputs", 254), ("requirements", 140), ("hints", 144), ("cwlVersion", 146), ("intent", 148), ("steps", 257)],  -- 51: Workflow, 21728
  [("class", 259)],  -- 52: SubworkflowFeatureRequirement, 22470
  [("class", 261)],  -- 53: ScatterFeatureRequirement, 22591
  [("class", 263)],  -- 54: MultipleInputFeatureRequirement, 22712
  [("class", 265)],  -- 55: StepInputExpressionRequirement, 22833
  [("id", 91), ("label", 94), ("secondaryFiles", 118), ("streamable", 113), ("doc", 90), ("format", 120), ("loadContents", 113), ("loadListing", 114), ("default", 10), ("type", 126)],  -- 56: OperationInputParameter, 22954
  [("id", 91), ("label", 94), ("secondaryFiles", 118), ("streamable", 113), ("doc", 90), ("format", 122), ("type", 134)],  -- 57: OperationOutputParameter, 23649
  [("id", 95), ("class", 267), ("label", 94), ("doc", 90), ("inputs", 269), ("outputs", 271), ("requirements", 140), ("hints", 144), ("cwlVersion", 146), ("intent", 148)],  -- 58: Operation, 24159
  [("class", 272), ("secrets", 273)],  -- 59: Secrets, 24819
  [("id", 95), ("class", 272), ("label", 94), ("doc", 90), ("inputs", 230), ("outputs", 232), ("requirements", 140), ("hints", 144), ("cwlVersion", 146), ("intent", 148), ("run", 247)],  -- 60: ProcessGenerator, 24991
  [("class", 272), ("processes", 225)],  -- 61: MPIRequirement, 25705
  [("class", 272), ("cudaComputeCapability", 274), ("cudaDeviceCountMax", 159), ("cudaDeviceCountMin", 159), ("cudaVersionMin", 0)],  -- 62: CUDARequirement, 25888
  [("id", 95), ("default", 275), ("linkMerge", 234), ("loopSource", 233), ("pickValue", 235), ("valueFrom", 121)],  -- 63: LoopInput, 26263
  [("class", 272), ("loop", 277), ("loopWhen", 42), ("outputMethod", 278)],  -- 64: Loop, 26705
  [("class", 272), ("shmSize", 0)]]  -- 65: ShmSize, 27011

/-- The classes with `subscope_baseuri` (`cwl_v1_1.py`, `cwl_v1_2.py:21415`, 25529) and the field that is loaded with it. -/
def subscoped : List (String × List String) := [("WorkflowStep", ["run"]), ("ProcessGenerator", ["run"])]

/-- The table of `cwl_v1_0.py`. -/
def tab10 : Tab := ⟨ldrs10, List.zipWith (fun c l => ⟨c, l, []⟩) Rec.classes10 fields10⟩

/-- The loader of `_document_load` of `cwl_v1_0.py`. -/
def top10 : Nat := 246

/-- `CWLInputFileLoader` of `cwl_v1_0.py`. -/
def inputFile10 : Nat := 12

/-- The table of `cwl_v1_1.py`. -/
def tab11 : Tab := ⟨ldrs11, List.zipWith (fun c l => ⟨c, l, (Dict.get? subscoped c.name).getD []⟩) Rec.classes11 fields11⟩

/-- The loader of `_document_load` of `cwl_v1_1.py`. -/
def top11 : Nat := 262

/-- `CWLInputFileLoader` of `cwl_v1_1.py`. -/
def inputFile11 : Nat := 38

/-- The table of `cwl_v1_2.py`. -/
def tab12 : Tab := ⟨ldrs12, List.zipWith (fun c l => ⟨c, l, (Dict.get? subscoped c.name).getD []⟩) Rec.classes12 fields12⟩

/-- The loader of `_document_load` of `cwl_v1_2.py`. -/
def top12 : Nat := 281

/-- `CWLInputFileLoader` of `cwl_v1_2.py`. -/
def inputFile12 : Nat := 39

end CwlUtils.Loader.Full
