# Modelled code

Generated by tools/coverage.py: the lines of /repo cited by the Lean modules (lines / code lines), and the modules. Lines outside these ranges are not modelled.

* **source/diagonal_preconditioner.cc** (75/93): 38-53, 57-76, 80-124 — Parallel/Programs, Precond/DiagModel
* **source/flow_base_algorithm.cc** (187/205): 24-29, 54-228, 232-284 — Boundary/Model, Boundary/Velocity, LevelSet/FluidType, Output/Model
* **source/level_set_base.cc** (508/520): 55-63, 66-136, 139, 143-183, 186-412, 416-447, 450-694 — LevelSet/Balance, LevelSet/FluidType, LevelSet/HeavisideField, LevelSet/Interpolation, LevelSet/Lengths, LevelSet/MatrixNormals, LevelSet/Ranges, LevelSet/ReinitLoop, LevelSet/Wiring, Mesh/Refinement, Operator/Dispatch, Output/JointFields, Output/Timing, Parallel/Observer, Parallel/Programs, Time/Clocks, TwoPhase/SecondRun, TwoPhase/Step
* **source/level_set_okz.cc** (331/406): 58-198, 201-210, 215-234, 316-562 — LevelSet/Balance, LevelSet/Content, LevelSet/Exchange, LevelSet/FluidType, LevelSet/HeavisideField, LevelSet/Interpolation, LevelSet/Profiles, LevelSet/Wiring, Operator/Dispatch, Output/Timing, Parallel/Programs, Time/Clocks, TwoPhase/Step
* **source/level_set_okz_advance_concentration.cc** (443/519): 37-68, 70-99, 103-174, 180-213, 220-262, 300-317, 335-386, 401-487, 506-652 — LevelSet/Advect, LevelSet/ArtificialViscosity, LevelSet/FluidType, LevelSet/Ranges, LevelSet/Stability, LevelSet/Units, LevelSet/Wiring, Operator/CellLoop, Operator/Dispatch, Parallel/Failures, Parallel/Programs, Time/Clocks, Time/SecondRun, TwoPhase/Adapt
* **source/level_set_okz_compute_curvature.cc** (240/301): 26-48, 56-83, 97-120, 148-205, 214-262, 267-306, 326-393 — LevelSet/Curvature, LevelSet/Lengths, LevelSet/NormalCurvature, LevelSet/Units, LevelSet/Wiring, Operator/Dispatch, Parallel/Programs, TwoPhase/Adapt
* **source/level_set_okz_compute_normal.cc** (134/197): 25-47, 54-79, 93-110, 134-140, 157-181, 209-279 — LevelSet/Lengths, LevelSet/NormalCurvature, LevelSet/Wiring, Operator/Dispatch, Parallel/DeterminedRuns, Parallel/Programs
* **source/level_set_okz_matrix.cc** (748/804): 59-67, 71-92, 95-311, 368-606, 613-715, 722-818, 820-836, 844-1113 — LevelSet/Curvature, LevelSet/FluidType, LevelSet/HeavisideField, LevelSet/MatrixAdvect, LevelSet/MatrixForce, LevelSet/MatrixNormals, LevelSet/MatrixReinit, LevelSet/Profiles, LevelSet/ReinitLoop, Output/Timing, Precond/Pattern, TwoPhase/Step
* **source/level_set_okz_preconditioner.cc** (136/176): 30-55, 60-180 — LevelSet/Lengths, LevelSet/NormalCurvature, Operator/Dispatch, Precond/Pattern
* **source/level_set_okz_reinitialization.cc** (251/273): 25-47, 52-232, 255-362 — LevelSet/Lengths, LevelSet/Profiles, LevelSet/Ranges, LevelSet/Reinit, LevelSet/ReinitLoop, LevelSet/Units, Operator/CellLoop, Operator/Dispatch, Parallel/Programs, Time/Clocks, TwoPhase/Adapt
* **source/navier_stokes.cc** (1063/1180): 60-124, 190-224, 228-361, 363-392, 398-517, 523-556, 559-745, 751-755, 760-1160, 1164-1318, 1322-1372, 1378-1408, 1412-1430, 1436-1462 — Boundary/Model, Boundary/Open, Boundary/Pressure, Boundary/Velocity, LevelSet/Wiring, Mesh/FlowAdapt, Nonlinear/Linear, Nonlinear/Loop, Nonlinear/Policy, Operator/Dispatch, Operator/PressureField, Operator/PressureSystem, Operator/Stationary, Operator/StokesField, Output/Timing, Parallel/DeterminedRuns, Parallel/Failures, Parallel/Observer, Parallel/Programs, Parallel/Surface, Precond/Assembly, Precond/Objects, Projection/History, Projection/Velocity, Sharp/MixedForce, Time/History, Time/SecondRun, TwoPhase/Step
* **source/navier_stokes_matrix.cc** (772/921): 43-60, 64-83, 92-108, 110-165, 190-206, 210-218, 222-293, 300-333, 337-517, 541-543, 601-916, 919-962, 965-1032, 1036-1071, 1074-1095, 1099-1140, 1166 — App/Channel, Boundary/Open, Boundary/Pressure, LevelSet/Wiring, Operator/Buffers, Operator/CellLoop, Operator/Dispatch, Operator/Energy, Operator/Frame, Operator/GradientForce, Operator/Momentum, Operator/Point, Operator/PressureMode, Operator/PressureOps, Operator/PressureSystem, Operator/Stationary, Operator/Steady, Operator/StokesField, Operator/Units, Parallel/Programs, Precond/Wrapper, Projection/Velocity, Sharp/MixedForce
* **source/navier_stokes_preconditioner.cc** (1893/2251): 228-445, 471-549, 591-741, 743-773, 777-854, 863-896, 901-974, 982-1076, 1087-1186, 1190-1387, 1397-1404, 1419-1424, 1438-1626, 1640-1684, 1687-1714, 1720-2367, 2370-2475, 2479-2484, 2549-2704 — Boundary/Velocity, Operator/Buffers, Operator/CellLoop, Operator/PressureOps, Operator/StokesField, Output/Timing, Parallel/Programs, Precond/Amg, Precond/Assembly, Precond/AssemblyLoop, Precond/AugmentedCoefficients, Precond/AugmentedPoisson, Precond/ComponentIlu, Precond/Objects, Precond/Pattern, Precond/Pressure, Precond/SubElements, Precond/VelocityApply, Precond/Wrapper, Projection/History, Projection/Velocity, TwoPhase/Step
* **source/parameters.cc** (534/540): 32-38, 42-58, 62-420, 423-448, 450-614 — Operator/Energy, Operator/Stationary, Parameters/File, Parameters/Model, Parameters/Theorems
* **source/phase_field.cc** (330/388): 53, 56, 60-77, 79-90, 96, 104-111, 113-177, 199-234, 239-311, 329-365, 381-471, 475-524 — LevelSet/HeavisideField, LevelSet/Interpolation, LevelSet/Profiles, LevelSet/Ranges, Mesh/Refinement, Operator/Dispatch, Operator/StokesField, Output/Timing, Parallel/Failures, Parallel/Programs, PhaseField/Energy, PhaseField/Jacobian, PhaseField/Newton, PhaseField/Precond, Precond/Pattern, TwoPhase/Adapt, TwoPhase/Step
* **source/phase_field_local.cc** (382/414): 50-225, 227-275, 300-365, 368-416, 421-441, 443-468, 472-538 — LevelSet/HeavisideField, LevelSet/Interpolation, LevelSet/Profiles, Operator/CellLoop, Operator/Dispatch, Output/Timing, Parallel/Programs, PhaseField/Energy, PhaseField/EnergyBdf2, PhaseField/Exchange, PhaseField/Frame, PhaseField/Jacobian, PhaseField/Newton, TwoPhase/Step
* **source/time_stepping.cc** (198/199): 24-269 — LevelSet/Stability, Operator/Stationary, Parameters/Model, PhaseField/EnergyBdf2, Time/Float, Time/Model, Time/Spec, Time/Units
* **source/two_phase_base.cc** (807/849): 26, 66-95, 118-197, 199-391, 394-438, 441-545, 550-592, 594-967, 972-1091 — App/ParticleLog, Boundary/Velocity, Bubble/Gather, Bubble/Marching, Bubble/Statistics, Bubble/Weights, LevelSet/FluidType, LevelSet/Lengths, LevelSet/Profiles, LevelSet/Ranges, LevelSet/Wiring, Mesh/Refinement, Operator/Dispatch, Operator/StokesField, Output/JointFields, Output/Timing, Parallel/Exchange, Parallel/Observer, Parallel/Programs, PhaseField/EnergyBdf2, Time/AdaptiveStep, Time/Clocks, Time/History, Time/SecondRun, TwoPhase/Adapt, TwoPhase/SecondRun, TwoPhase/Step
* **include/adaflo/block_matrix_extension.h** (83/114): 35-99, 118-148 — Precond/ComponentIlu, Precond/VelocityApply
* **include/adaflo/diagonal_preconditioner.h** (6/42): 46-49, 60-62 — Precond/DiagModel
* **include/adaflo/flow_base_algorithm.h** (13/78): 46-61, 114 — Boundary/Model, Time/SecondRun
* **include/adaflo/level_set_base.h** (91/112): 46-115, 118-175 — Bubble/Statistics, LevelSet/Delta, LevelSet/Heaviside, LevelSet/Wiring, TwoPhase/Step
* **include/adaflo/level_set_okz.h** (0/69): not modelled
* **include/adaflo/level_set_okz_advance_concentration.h** (2/85): 168, 175 — LevelSet/FluidType, Time/SecondRun
* **include/adaflo/level_set_okz_compute_curvature.h** (0/71): not modelled
* **include/adaflo/level_set_okz_compute_normal.h** (1/67): 66 — LevelSet/NormalCurvature
* **include/adaflo/level_set_okz_matrix.h** (0/39): not modelled
* **include/adaflo/level_set_okz_preconditioner.h** (0/84): not modelled
* **include/adaflo/level_set_okz_reinitialization.h** (32/92): 74-105, 165 — LevelSet/Wiring, Time/SecondRun
* **include/adaflo/level_set_okz_template_instantations.h** (59/62): 20-78 — Operator/Dispatch
* **include/adaflo/navier_stokes.h** (141/265): 61-125, 223-361, 392-393, 411, 436-440 — LevelSet/Wiring, Mesh/FlowAdapt, Nonlinear/Loop, Nonlinear/Policy, Operator/Dispatch, Operator/StokesField, Precond/Objects, Sharp/MixedForce
* **include/adaflo/navier_stokes_matrix.h** (99/268): 247-256, 263-275, 290-382, 384-395 — Operator/Buffers, Operator/CellLoop, Operator/StokesField, Precond/AssemblyLoop, Sharp/MixedForce
* **include/adaflo/navier_stokes_preconditioner.h** (38/169): 147-176, 222, 262-278 — Operator/StokesField, Precond/AugmentedCoefficients, Precond/AugmentedPoisson, Precond/Objects, TwoPhase/Step
* **include/adaflo/parameters.h** (6/103): 65-70 — Parameters/Model
* **include/adaflo/phase_field.h** (0/93): not modelled
* **include/adaflo/sharp_interface.h** (722/825): 56-61, 63-331, 338-361, 401-410, 413-431, 462-476, 503-550, 552-617, 619-745, 758-809, 812-938, 940-1063 — LevelSet/FluidType, LevelSet/HeavisideField, LevelSet/Lengths, LevelSet/Wiring, Operator/Dispatch, Parallel/Observer, Parallel/Programs, Parallel/Surface, Sharp/Force, Sharp/MixedForce, Sharp/Phases, Sharp/SurfaceCurvature, Sharp/SurfaceTime, Sharp/Transport, Time/Clocks, Time/History
* **include/adaflo/sharp_interface_util.h** (723/745): 52-121, 128-160, 162-239, 242-436, 443-478, 485-620, 636-806, 808-985, 988-1050 — Parallel/Programs, Parallel/Surface, Sharp/Collect, Sharp/Force, Sharp/Phases, Sharp/SurfaceCurvature, Sharp/Transport
* **include/adaflo/time_stepping.h** (60/209): 31-52, 133-191, 256-262, 284-288, 292-303 — Time/Model, Time/Weights
* **include/adaflo/two_phase_base.h** (1/137): 233 — LevelSet/Ranges
* **include/adaflo/util.h** (64/120): 47-118 — Mesh/CellDiameter
* **applications/CMakeLists.txt** (0/31): not modelled
* **applications/drivencavity.cc** (224/323): 72-89, 117, 135-262, 266-331, 345-418 — App/CavityLines, Mesh/FlowAdapt, Output/Timing, Parallel/Exchange
* **applications/drivencavity.prm** (0/32): not modelled
* **applications/micro_particle.cc** (205/395): 39-60, 74-81, 105-141, 143-150, 213-220, 238-287, 304-315, 328-343, 351-392, 467-528 — App/ParticleLog, App/ParticleSetup, Parameters/File
* **applications/micro_particle.prm** (0/53): not modelled
* **applications/micro_particle_node.prm** (0/53): not modelled
* **applications/microfluidic_2D.msh** (0/2310): not modelled
* **applications/periodic_channel.cc** (216/313): 64-79, 141-172, 177-236, 240-248, 252-302, 306-400 — App/Channel, Mesh/FlowAdapt, Output/Timing, Parallel/Exchange
* **applications/periodic_channel.prm** (0/33): not modelled

Total: 11818 of 17628 code lines.
