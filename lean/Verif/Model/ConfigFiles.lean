import Verif.Model.Config

/-!
# The configuration files of the repository (directory cfg)
-/

namespace RFS.Config

/-- cfg/rbphdslam2dSim.xml: the elements without children, in the order of the file; comments are left out. -/
def cfg_rbphdslam2dSim : Tree := ⟨[
  ("config.logging.logResultsToFile", "1".toList),
  ("config.logging.logTimingToFile", "1".toList),
  ("config.logging.logDirPrefix", "data/rbphdslam".toList),
  ("config.timesteps", "1000".toList),
  ("config.sec_per_timestep", "0.1".toList),
  ("config.trajectory.nSegments", "20".toList),
  ("config.trajectory.max_dx_per_sec", "0.30".toList),
  ("config.trajectory.max_dy_per_sec", "0.00".toList),
  ("config.trajectory.max_dz_per_sec", "0.50".toList),
  ("config.trajectory.min_dx_per_sec", "0.10".toList),
  ("config.trajectory.vardx", "0.00200".toList),
  ("config.trajectory.vardy", "0.00200".toList),
  ("config.trajectory.vardz", "0.00200".toList),
  ("config.landmarks.nLandmarks", "50".toList),
  ("config.landmarks.varlmx", "0.0002".toList),
  ("config.landmarks.varlmy", "0.0002".toList),
  ("config.measurements.rangeLimitMax", "2.5".toList),
  ("config.measurements.rangeLimitMin", "0.5".toList),
  ("config.measurements.rangeLimitBuffer", "0.05".toList),
  ("config.measurements.probDetection", "0.99".toList),
  ("config.measurements.clutterIntensity", "0.005".toList),
  ("config.measurements.varzx", "0.0005".toList),
  ("config.measurements.varzy", "0.0005".toList),
  ("config.filter.nParticles", "200".toList),
  ("config.filter.predict.processNoiseInflationFactor", "1.5".toList),
  ("config.filter.predict.birthGaussianWeight", "0.01".toList),
  ("config.filter.update.measurementNoiseInflationFactor", "100.0".toList),
  ("config.filter.update.KalmanFilter.innovationThreshold.range", "1.0".toList),
  ("config.filter.update.KalmanFilter.innovationThreshold.bearing", "0.2".toList),
  ("config.filter.update.GaussianCreateInnovMDThreshold", "3.0".toList),
  ("config.filter.weighting.nEvalPt", "15".toList),
  ("config.filter.weighting.minWeight", "0.75".toList),
  ("config.filter.weighting.threshold", "3.0".toList),
  ("config.filter.weighting.useClusterProcess", "0".toList),
  ("config.filter.resampling.effNParticle", "100.0".toList),
  ("config.filter.resampling.minTimesteps", "2".toList),
  ("config.filter.merge.threshold", "0.5".toList),
  ("config.filter.merge.covInflationFactor", "1.5".toList),
  ("config.filter.prune.threshold", "0.01".toList)],
  none⟩

/-- cfg/fastslam2dSim.xml: the elements without children, in the order of the file; comments are left out. -/
def cfg_fastslam2dSim : Tree := ⟨[
  ("config.logging.logResultsToFile", "1".toList),
  ("config.logging.logTimingToFile", "1".toList),
  ("config.logging.logDirPrefix", "data/fastslam/".toList),
  ("config.timesteps", "3000".toList),
  ("config.sec_per_timestep", "0.1".toList),
  ("config.trajectory.nSegments", "20".toList),
  ("config.trajectory.max_dx_per_sec", "0.30".toList),
  ("config.trajectory.max_dy_per_sec", "0.00".toList),
  ("config.trajectory.max_dz_per_sec", "0.50".toList),
  ("config.trajectory.min_dx_per_sec", "0.10".toList),
  ("config.trajectory.vardx", "0.00200".toList),
  ("config.trajectory.vardy", "0.00200".toList),
  ("config.trajectory.vardz", "0.00200".toList),
  ("config.landmarks.nLandmarks", "50".toList),
  ("config.landmarks.varlmx", "0.0002".toList),
  ("config.landmarks.varlmy", "0.0002".toList),
  ("config.measurements.rangeLimitMax", "2.5".toList),
  ("config.measurements.rangeLimitMin", "0.5".toList),
  ("config.measurements.rangeLimitBuffer", "0.05".toList),
  ("config.measurements.probDetection", "0.50".toList),
  ("config.measurements.clutterIntensity", "0.5".toList),
  ("config.measurements.varzr", "0.0005".toList),
  ("config.measurements.varzb", "0.00005".toList),
  ("config.filter.nParticles", "200".toList),
  ("config.filter.predict.processNoiseInflationFactor", "1.5".toList),
  ("config.filter.update.measurementNoiseInflationFactor", "10.0".toList),
  ("config.filter.update.maxNDataAssocHypotheses", "1".toList),
  ("config.filter.update.maxDataAssocLogLikelihoodDiff", "3.0".toList),
  ("config.filter.update.KalmanFilter.innovationThreshold.range", "1.0".toList),
  ("config.filter.update.KalmanFilter.innovationThreshold.bearing", "0.2".toList),
  ("config.filter.weighting.minLogMeasurementLikelihood", "-10.0".toList),
  ("config.filter.resampling.effNParticle", "100.0".toList),
  ("config.filter.resampling.minTimesteps", "2".toList),
  ("config.filter.prune.threshold", "-5.0".toList),
  ("config.filter.reportTimingInfo", "1".toList)],
  none⟩

/-- cfg/mhfastslam2dSim.xml: the elements without children, in the order of the file; comments are left out. -/
def cfg_mhfastslam2dSim : Tree := ⟨[
  ("config.logging.logResultsToFile", "1".toList),
  ("config.logging.logTimingToFile", "1".toList),
  ("config.logging.logDirPrefix", "data/mhfastslam/".toList),
  ("config.timesteps", "3000".toList),
  ("config.sec_per_timestep", "0.1".toList),
  ("config.trajectory.nSegments", "20".toList),
  ("config.trajectory.max_dx_per_sec", "0.30".toList),
  ("config.trajectory.max_dy_per_sec", "0.00".toList),
  ("config.trajectory.max_dz_per_sec", "0.50".toList),
  ("config.trajectory.min_dx_per_sec", "0.10".toList),
  ("config.trajectory.vardx", "0.00200".toList),
  ("config.trajectory.vardy", "0.00200".toList),
  ("config.trajectory.vardz", "0.00200".toList),
  ("config.landmarks.nLandmarks", "50".toList),
  ("config.landmarks.varlmx", "0.0002".toList),
  ("config.landmarks.varlmy", "0.0002".toList),
  ("config.measurements.rangeLimitMax", "2.5".toList),
  ("config.measurements.rangeLimitMin", "0.5".toList),
  ("config.measurements.rangeLimitBuffer", "0.05".toList),
  ("config.measurements.probDetection", "0.50".toList),
  ("config.measurements.clutterIntensity", "0.5".toList),
  ("config.measurements.varzr", "0.0005".toList),
  ("config.measurements.varzb", "0.00005".toList),
  ("config.filter.nParticles", "200".toList),
  ("config.filter.predict.processNoiseInflationFactor", "1.5".toList),
  ("config.filter.update.measurementNoiseInflationFactor", "10.0".toList),
  ("config.filter.update.maxNDataAssocHypotheses", "3".toList),
  ("config.filter.update.maxDataAssocLogLikelihoodDiff", "3.0".toList),
  ("config.filter.update.KalmanFilter.innovationThreshold.range", "1.0".toList),
  ("config.filter.update.KalmanFilter.innovationThreshold.bearing", "0.2".toList),
  ("config.filter.weighting.minLogMeasurementLikelihood", "-10.0".toList),
  ("config.filter.resampling.effNParticle", "100.0".toList),
  ("config.filter.resampling.minTimesteps", "2".toList),
  ("config.filter.prune.threshold", "-5.0".toList)],
  none⟩

/-- cfg/fastslam_VictoriaPark.xml: the elements without children, in the order of the file; comments are left out. -/
def cfg_fastslam_VictoriaPark : Tree := ⟨[
  ("config.dataset.directory", "data/VictoriaPark/".toList),
  ("config.dataset.filename.gps", "gps.dat".toList),
  ("config.dataset.filename.detection", "measurements.dat".toList),
  ("config.dataset.filename.lidar", "LASER.txt".toList),
  ("config.dataset.filename.input", "inputs.dat".toList),
  ("config.dataset.filename.manager", "Sensors_manager.txt".toList),
  ("config.logging.logResultsToFile", "1".toList),
  ("config.logging.logTimingToFile", "1".toList),
  ("config.logging.logDirPrefix", "data/VictoriaPark/fastslam/results/".toList),
  ("config.process.AckermanModel.rearWheelOffset", "0.76".toList),
  ("config.process.AckermanModel.frontToRearDist", "2.83".toList),
  ("config.process.AckermanModel.sensorOffset_x", "3.78".toList),
  ("config.process.AckermanModel.sensorOffset_y", "0.50".toList),
  ("config.process.varuv", "0.200".toList),
  ("config.process.varur", "0.025".toList),
  ("config.process.ur_scale", "1.0".toList),
  ("config.landmarks.varlmx", "0.0005".toList),
  ("config.landmarks.varlmy", "0.0005".toList),
  ("config.landmarks.varlmd", "0.0001".toList),
  ("config.measurements.rangeLimitMax", "70".toList),
  ("config.measurements.rangeLimitMin", "5".toList),
  ("config.measurements.bearingLimitMax", "177.0".toList),
  ("config.measurements.bearingLimitMin", "6.3025".toList),
  ("config.measurements.bufferZonePd", "0.4".toList),
  ("config.measurements.probDetection", "0.90".toList),
  ("config.measurements.expectedNClutter", "3".toList),
  ("config.measurements.varzr", "0.025".toList),
  ("config.measurements.varzb", "0.000025".toList),
  ("config.measurements.varzd", "0.002".toList),
  ("config.measurements.varza", "0.00001".toList),
  ("config.filter.nMsgToProcess", "00000".toList),
  ("config.filter.nParticles", "100".toList),
  ("config.filter.predict.processNoiseInflationFactor", "15".toList),
  ("config.filter.update.measurementNoiseInflationFactor", "75".toList),
  ("config.filter.update.maxNDataAssocHypotheses", "1".toList),
  ("config.filter.update.maxDataAssocLogLikelihoodDiff", "3.0".toList),
  ("config.filter.update.KalmanFilter.innovationThreshold.range", "7.5".toList),
  ("config.filter.update.KalmanFilter.innovationThreshold.bearing", "0.2".toList),
  ("config.filter.update.landmarkCandidate.MeasurementSupportDist", "1".toList),
  ("config.filter.update.landmarkCandidate.MeasurementCountThreshold", "4".toList),
  ("config.filter.update.landmarkCandidate.CurrentMeasurementCountThreshold", "1".toList),
  ("config.filter.update.landmarkCandidate.MeasurementCheckThreshold", "20".toList),
  ("config.filter.update.landmarkLockWeight", "8".toList),
  ("config.filter.weighting.minLogMeasurementLikelihood", "-30.0".toList),
  ("config.filter.resampling.effNParticle", "25.0".toList),
  ("config.filter.resampling.minTimesteps", "2".toList),
  ("config.filter.resampling.minMeasurements", "15".toList),
  ("config.filter.prune.nMeasurementsThreshold", "3".toList),
  ("config.filter.prune.threshold", "-5.0".toList)],
  some (values ["0.00".toList, "0.20".toList, "0.50".toList, "0.80".toList, "0.90".toList])⟩

/-- cfg/fastslam_VictoriaPark_artificialClutter.xml: the elements without children, in the order of the file; comments are left out. -/
def cfg_fastslam_VictoriaPark_artificialClutter : Tree := ⟨[
  ("config.dataset.directory", "data/VictoriaPark/".toList),
  ("config.dataset.filename.gps", "gps.dat".toList),
  ("config.dataset.filename.detection", "measurements.dat".toList),
  ("config.dataset.filename.lidar", "LASER.txt".toList),
  ("config.dataset.filename.input", "inputs.dat".toList),
  ("config.dataset.filename.manager", "Sensors_manager.txt".toList),
  ("config.logging.logResultsToFile", "0".toList),
  ("config.logging.logTimingToFile", "1".toList),
  ("config.logging.logDirPrefix", "data/VictoriaPark/fastslam_clutter/results/".toList),
  ("config.process.AckermanModel.rearWheelOffset", "0.76".toList),
  ("config.process.AckermanModel.frontToRearDist", "2.83".toList),
  ("config.process.AckermanModel.sensorOffset_x", "3.78".toList),
  ("config.process.AckermanModel.sensorOffset_y", "0.50".toList),
  ("config.process.varuv", "0.200".toList),
  ("config.process.varur", "0.025".toList),
  ("config.process.ur_scale", "1.0".toList),
  ("config.landmarks.varlmx", "0.0005".toList),
  ("config.landmarks.varlmy", "0.0005".toList),
  ("config.landmarks.varlmd", "0.0001".toList),
  ("config.measurements.rangeLimitMax", "70".toList),
  ("config.measurements.rangeLimitMin", "5".toList),
  ("config.measurements.bearingLimitMax", "177.0".toList),
  ("config.measurements.bearingLimitMin", "6.3025".toList),
  ("config.measurements.bufferZonePd", "0.4".toList),
  ("config.measurements.probDetection", "0.90".toList),
  ("config.measurements.expectedNClutter", "6".toList),
  ("config.measurements.addedClutter", "3".toList),
  ("config.measurements.varzr", "0.025".toList),
  ("config.measurements.varzb", "0.000025".toList),
  ("config.measurements.varzd", "0.002".toList),
  ("config.measurements.varza", "0.00001".toList),
  ("config.filter.nMsgToProcess", "00000".toList),
  ("config.filter.nParticles", "100".toList),
  ("config.filter.predict.processNoiseInflationFactor", "15".toList),
  ("config.filter.update.measurementNoiseInflationFactor", "75".toList),
  ("config.filter.update.maxNDataAssocHypotheses", "1".toList),
  ("config.filter.update.maxDataAssocLogLikelihoodDiff", "3.0".toList),
  ("config.filter.update.KalmanFilter.innovationThreshold.range", "7.5".toList),
  ("config.filter.update.KalmanFilter.innovationThreshold.bearing", "0.2".toList),
  ("config.filter.update.landmarkCandidate.MeasurementSupportDist", "1".toList),
  ("config.filter.update.landmarkCandidate.MeasurementCountThreshold", "4".toList),
  ("config.filter.update.landmarkCandidate.CurrentMeasurementCountThreshold", "1".toList),
  ("config.filter.update.landmarkCandidate.MeasurementCheckThreshold", "20".toList),
  ("config.filter.update.landmarkLockWeight", "8".toList),
  ("config.filter.weighting.minLogMeasurementLikelihood", "-30.0".toList),
  ("config.filter.resampling.effNParticle", "25.0".toList),
  ("config.filter.resampling.minTimesteps", "2".toList),
  ("config.filter.resampling.minMeasurements", "15".toList),
  ("config.filter.prune.nMeasurementsThreshold", "3".toList),
  ("config.filter.prune.threshold", "-5.0".toList)],
  some (values ["0.00".toList, "0.20".toList, "0.50".toList, "0.80".toList, "0.90".toList])⟩

/-- cfg/mhfastslam_VictoriaPark.xml: the elements without children, in the order of the file; comments are left out. -/
def cfg_mhfastslam_VictoriaPark : Tree := ⟨[
  ("config.dataset.directory", "data/VictoriaPark/".toList),
  ("config.dataset.filename.gps", "gps.dat".toList),
  ("config.dataset.filename.detection", "measurements.dat".toList),
  ("config.dataset.filename.lidar", "LASER.txt".toList),
  ("config.dataset.filename.input", "inputs.dat".toList),
  ("config.dataset.filename.manager", "Sensors_manager.txt".toList),
  ("config.logging.logResultsToFile", "1".toList),
  ("config.logging.logTimingToFile", "1".toList),
  ("config.logging.logDirPrefix", "data/VictoriaPark/mhfastslam/results/".toList),
  ("config.process.AckermanModel.rearWheelOffset", "0.76".toList),
  ("config.process.AckermanModel.frontToRearDist", "2.83".toList),
  ("config.process.AckermanModel.sensorOffset_x", "3.78".toList),
  ("config.process.AckermanModel.sensorOffset_y", "0.50".toList),
  ("config.process.varuv", "0.200".toList),
  ("config.process.varur", "0.025".toList),
  ("config.process.ur_scale", "1.0".toList),
  ("config.landmarks.varlmx", "0.0005".toList),
  ("config.landmarks.varlmy", "0.0005".toList),
  ("config.landmarks.varlmd", "0.0001".toList),
  ("config.measurements.rangeLimitMax", "70".toList),
  ("config.measurements.rangeLimitMin", "5".toList),
  ("config.measurements.bearingLimitMax", "177.0".toList),
  ("config.measurements.bearingLimitMin", "6.3025".toList),
  ("config.measurements.bufferZonePd", "0.4".toList),
  ("config.measurements.probDetection", "0.90".toList),
  ("config.measurements.expectedNClutter", "3".toList),
  ("config.measurements.varzr", "0.025".toList),
  ("config.measurements.varzb", "0.000025".toList),
  ("config.measurements.varzd", "0.002".toList),
  ("config.measurements.varza", "0.00001".toList),
  ("config.filter.nMsgToProcess", "00000".toList),
  ("config.filter.nParticles", "100".toList),
  ("config.filter.predict.processNoiseInflationFactor", "15".toList),
  ("config.filter.update.measurementNoiseInflationFactor", "75".toList),
  ("config.filter.update.maxNDataAssocHypotheses", "3".toList),
  ("config.filter.update.maxDataAssocLogLikelihoodDiff", "3.0".toList),
  ("config.filter.update.KalmanFilter.innovationThreshold.range", "7.5".toList),
  ("config.filter.update.KalmanFilter.innovationThreshold.bearing", "0.2".toList),
  ("config.filter.update.landmarkCandidate.MeasurementSupportDist", "1".toList),
  ("config.filter.update.landmarkCandidate.MeasurementCountThreshold", "4".toList),
  ("config.filter.update.landmarkCandidate.CurrentMeasurementCountThreshold", "1".toList),
  ("config.filter.update.landmarkCandidate.MeasurementCheckThreshold", "20".toList),
  ("config.filter.update.landmarkLockWeight", "8".toList),
  ("config.filter.weighting.minLogMeasurementLikelihood", "-30.0".toList),
  ("config.filter.resampling.effNParticle", "25.0".toList),
  ("config.filter.resampling.minTimesteps", "2".toList),
  ("config.filter.resampling.minMeasurements", "15".toList),
  ("config.filter.prune.nMeasurementsThreshold", "3".toList),
  ("config.filter.prune.threshold", "-5.0".toList)],
  some (values ["0.00".toList, "0.20".toList, "0.50".toList, "0.80".toList, "0.90".toList])⟩

/-- cfg/mhfastslam_VictoriaPark_artificialClutter.xml: the elements without children, in the order of the file; comments are left out. -/
def cfg_mhfastslam_VictoriaPark_artificialClutter : Tree := ⟨[
  ("config.dataset.directory", "data/VictoriaPark/".toList),
  ("config.dataset.filename.gps", "gps.dat".toList),
  ("config.dataset.filename.detection", "measurements.dat".toList),
  ("config.dataset.filename.lidar", "LASER.txt".toList),
  ("config.dataset.filename.input", "inputs.dat".toList),
  ("config.dataset.filename.manager", "Sensors_manager.txt".toList),
  ("config.logging.logResultsToFile", "0".toList),
  ("config.logging.logTimingToFile", "1".toList),
  ("config.logging.logDirPrefix", "data/VictoriaPark/mhfastslam_clutter/results/".toList),
  ("config.process.AckermanModel.rearWheelOffset", "0.76".toList),
  ("config.process.AckermanModel.frontToRearDist", "2.83".toList),
  ("config.process.AckermanModel.sensorOffset_x", "3.78".toList),
  ("config.process.AckermanModel.sensorOffset_y", "0.50".toList),
  ("config.process.varuv", "0.200".toList),
  ("config.process.varur", "0.025".toList),
  ("config.process.ur_scale", "1.0".toList),
  ("config.landmarks.varlmx", "0.0005".toList),
  ("config.landmarks.varlmy", "0.0005".toList),
  ("config.landmarks.varlmd", "0.0001".toList),
  ("config.measurements.rangeLimitMax", "70".toList),
  ("config.measurements.rangeLimitMin", "5".toList),
  ("config.measurements.bearingLimitMax", "177.0".toList),
  ("config.measurements.bearingLimitMin", "6.3025".toList),
  ("config.measurements.bufferZonePd", "0.4".toList),
  ("config.measurements.probDetection", "0.90".toList),
  ("config.measurements.expectedNClutter", "6".toList),
  ("config.measurements.addedClutter", "3".toList),
  ("config.measurements.varzr", "0.025".toList),
  ("config.measurements.varzb", "0.000025".toList),
  ("config.measurements.varzd", "0.002".toList),
  ("config.measurements.varza", "0.00001".toList),
  ("config.filter.nMsgToProcess", "00000".toList),
  ("config.filter.nParticles", "100".toList),
  ("config.filter.predict.processNoiseInflationFactor", "15".toList),
  ("config.filter.update.measurementNoiseInflationFactor", "75".toList),
  ("config.filter.update.maxNDataAssocHypotheses", "3".toList),
  ("config.filter.update.maxDataAssocLogLikelihoodDiff", "3.0".toList),
  ("config.filter.update.KalmanFilter.innovationThreshold.range", "7.5".toList),
  ("config.filter.update.KalmanFilter.innovationThreshold.bearing", "0.2".toList),
  ("config.filter.update.landmarkCandidate.MeasurementSupportDist", "1".toList),
  ("config.filter.update.landmarkCandidate.MeasurementCountThreshold", "4".toList),
  ("config.filter.update.landmarkCandidate.CurrentMeasurementCountThreshold", "1".toList),
  ("config.filter.update.landmarkCandidate.MeasurementCheckThreshold", "20".toList),
  ("config.filter.update.landmarkLockWeight", "8".toList),
  ("config.filter.weighting.minLogMeasurementLikelihood", "-30.0".toList),
  ("config.filter.resampling.effNParticle", "25.0".toList),
  ("config.filter.resampling.minTimesteps", "2".toList),
  ("config.filter.resampling.minMeasurements", "15".toList),
  ("config.filter.prune.nMeasurementsThreshold", "3".toList),
  ("config.filter.prune.threshold", "-5.0".toList)],
  some (values ["0.00".toList, "0.20".toList, "0.50".toList, "0.80".toList, "0.90".toList])⟩

/-- cfg/rbphdslam_VictoriaPark.xml: the elements without children, in the order of the file; comments are left out. -/
def cfg_rbphdslam_VictoriaPark : Tree := ⟨[
  ("config.dataset.directory", "data/VictoriaPark/".toList),
  ("config.dataset.filename.gps", "gps.dat".toList),
  ("config.dataset.filename.detection", "measurements.dat".toList),
  ("config.dataset.filename.lidar", "LASER.txt".toList),
  ("config.dataset.filename.input", "inputs.dat".toList),
  ("config.dataset.filename.manager", "Sensors_manager.txt".toList),
  ("config.logging.logResultsToFile", "1".toList),
  ("config.logging.logTimingToFile", "1".toList),
  ("config.logging.logDirPrefix", "data/VictoriaPark/rbphdslam/results/".toList),
  ("config.process.AckermanModel.rearWheelOffset", "0.76".toList),
  ("config.process.AckermanModel.frontToRearDist", "2.83".toList),
  ("config.process.AckermanModel.sensorOffset_x", "3.78".toList),
  ("config.process.AckermanModel.sensorOffset_y", "0.50".toList),
  ("config.process.varuv", "0.200".toList),
  ("config.process.varur", "0.025".toList),
  ("config.process.ur_scale", "1.0".toList),
  ("config.landmarks.varlmx", "0.0005".toList),
  ("config.landmarks.varlmy", "0.0005".toList),
  ("config.landmarks.varlmd", "0.0001".toList),
  ("config.measurements.rangeLimitMax", "70".toList),
  ("config.measurements.rangeLimitMin", "5".toList),
  ("config.measurements.bearingLimitMax", "177.0".toList),
  ("config.measurements.bearingLimitMin", "6.3025".toList),
  ("config.measurements.bufferZonePd", "0.4".toList),
  ("config.measurements.probDetection", "0.90".toList),
  ("config.measurements.expectedNClutter", "3".toList),
  ("config.measurements.varzr", "0.025".toList),
  ("config.measurements.varzb", "0.000025".toList),
  ("config.measurements.varzd", "0.002".toList),
  ("config.measurements.varza", "0.00001".toList),
  ("config.filter.nMsgToProcess", "00000".toList),
  ("config.filter.nParticles", "100".toList),
  ("config.filter.predict.processNoiseInflationFactor", "20".toList),
  ("config.filter.predict.birthGaussian.Weight", "0.01".toList),
  ("config.filter.predict.birthGaussian.SupportMeasurementDist", "2".toList),
  ("config.filter.predict.birthGaussian.SupportMeasurementThreshold", "5".toList),
  ("config.filter.predict.birthGaussian.CheckCountThreshold", "10".toList),
  ("config.filter.predict.birthGaussian.CurrentMeasurementCountThreshold", "2".toList),
  ("config.filter.update.measurementNoiseInflationFactor", "40.0".toList),
  ("config.filter.update.KalmanFilter.innovationThreshold.range", "7.5".toList),
  ("config.filter.update.KalmanFilter.innovationThreshold.bearing", "0.2".toList),
  ("config.filter.update.GaussianCreateInnovMDThreshold", "3.0".toList),
  ("config.filter.weighting.nEvalPt", "15".toList),
  ("config.filter.weighting.minWeight", "0.75".toList),
  ("config.filter.weighting.threshold", "3.0".toList),
  ("config.filter.weighting.useClusterProcess", "1".toList),
  ("config.filter.resampling.effNParticle", "50.0".toList),
  ("config.filter.resampling.minTimesteps", "2".toList),
  ("config.filter.merge.threshold", "1.0".toList),
  ("config.filter.merge.covInflationFactor", "1.5".toList),
  ("config.filter.prune.threshold", "0.01".toList)],
  some (values ["0.00".toList, "0.05".toList, "0.35".toList, "0.76".toList, "0.89".toList, "0.90".toList])⟩

/-- cfg/rbphdslam_VictoriaPark_artificialClutter.xml: the elements without children, in the order of the file; comments are left out. -/
def cfg_rbphdslam_VictoriaPark_artificialClutter : Tree := ⟨[
  ("config.dataset.directory", "data/VictoriaPark/".toList),
  ("config.dataset.filename.gps", "gps.dat".toList),
  ("config.dataset.filename.detection", "measurements.dat".toList),
  ("config.dataset.filename.lidar", "LASER.txt".toList),
  ("config.dataset.filename.input", "inputs.dat".toList),
  ("config.dataset.filename.manager", "Sensors_manager.txt".toList),
  ("config.logging.logResultsToFile", "0".toList),
  ("config.logging.logTimingToFile", "1".toList),
  ("config.logging.logDirPrefix", "data/VictoriaPark/rbphdslam_clutter/results/".toList),
  ("config.process.AckermanModel.rearWheelOffset", "0.76".toList),
  ("config.process.AckermanModel.frontToRearDist", "2.83".toList),
  ("config.process.AckermanModel.sensorOffset_x", "3.78".toList),
  ("config.process.AckermanModel.sensorOffset_y", "0.50".toList),
  ("config.process.varuv", "0.200".toList),
  ("config.process.varur", "0.025".toList),
  ("config.process.ur_scale", "1.0".toList),
  ("config.landmarks.varlmx", "0.0005".toList),
  ("config.landmarks.varlmy", "0.0005".toList),
  ("config.landmarks.varlmd", "0.0001".toList),
  ("config.measurements.rangeLimitMax", "70".toList),
  ("config.measurements.rangeLimitMin", "5".toList),
  ("config.measurements.bearingLimitMax", "177.0".toList),
  ("config.measurements.bearingLimitMin", "6.3025".toList),
  ("config.measurements.bufferZonePd", "0.4".toList),
  ("config.measurements.probDetection", "0.90".toList),
  ("config.measurements.expectedNClutter", "6".toList),
  ("config.measurements.addedClutter", "3".toList),
  ("config.measurements.varzr", "0.025".toList),
  ("config.measurements.varzb", "0.000025".toList),
  ("config.measurements.varzd", "0.002".toList),
  ("config.measurements.varza", "0.00001".toList),
  ("config.filter.nMsgToProcess", "00000".toList),
  ("config.filter.nParticles", "100".toList),
  ("config.filter.predict.processNoiseInflationFactor", "20".toList),
  ("config.filter.predict.birthGaussian.Weight", "0.01".toList),
  ("config.filter.predict.birthGaussian.SupportMeasurementDist", "2".toList),
  ("config.filter.predict.birthGaussian.SupportMeasurementThreshold", "5".toList),
  ("config.filter.predict.birthGaussian.CheckCountThreshold", "10".toList),
  ("config.filter.predict.birthGaussian.CurrentMeasurementCountThreshold", "2".toList),
  ("config.filter.update.measurementNoiseInflationFactor", "40.0".toList),
  ("config.filter.update.KalmanFilter.innovationThreshold.range", "7.5".toList),
  ("config.filter.update.KalmanFilter.innovationThreshold.bearing", "0.2".toList),
  ("config.filter.update.GaussianCreateInnovMDThreshold", "3.0".toList),
  ("config.filter.weighting.nEvalPt", "15".toList),
  ("config.filter.weighting.minWeight", "0.75".toList),
  ("config.filter.weighting.threshold", "3.0".toList),
  ("config.filter.weighting.useClusterProcess", "0".toList),
  ("config.filter.resampling.effNParticle", "50.0".toList),
  ("config.filter.resampling.minTimesteps", "2".toList),
  ("config.filter.resampling.minMeasurements", "15".toList),
  ("config.filter.merge.threshold", "1.0".toList),
  ("config.filter.merge.covInflationFactor", "1.5".toList),
  ("config.filter.prune.threshold", "0.01".toList)],
  some (values ["0.00".toList, "0.05".toList, "0.35".toList, "0.76".toList, "0.89".toList, "0.90".toList])⟩

/-- cfg/rbcbmemberslam2dSim.xml: the elements without children, in the order of the file; comments are left out. -/
def cfg_rbcbmemberslam2dSim : Tree := ⟨[
  ("config.logging.logToFile", "1".toList),
  ("config.logging.logDirPrefix", "data/rbcbmember2dslam/".toList),
  ("config.timesteps", "3000".toList),
  ("config.sec_per_timestep", "0.1".toList),
  ("config.trajectory.nSegments", "20".toList),
  ("config.trajectory.max_dx_per_sec", "0.30".toList),
  ("config.trajectory.max_dy_per_sec", "0.00".toList),
  ("config.trajectory.max_dz_per_sec", "0.50".toList),
  ("config.trajectory.min_dx_per_sec", "0.10".toList),
  ("config.trajectory.vardx", "0.00200".toList),
  ("config.trajectory.vardy", "0.00200".toList),
  ("config.trajectory.vardz", "0.00200".toList),
  ("config.landmarks.nLandmarks", "50".toList),
  ("config.landmarks.varlmx", "0.0001".toList),
  ("config.landmarks.varlmy", "0.0001".toList),
  ("config.measurements.rangeLimitMax", "2.5".toList),
  ("config.measurements.rangeLimitMin", "0.5".toList),
  ("config.measurements.rangeLimitBuffer", "0.05".toList),
  ("config.measurements.probDetection", "0.50".toList),
  ("config.measurements.clutterIntensity", "0.5".toList),
  ("config.measurements.varzr", "0.0005".toList),
  ("config.measurements.varzb", "0.00005".toList),
  ("config.filter.nParticles", "200".toList),
  ("config.filter.predict.processNoiseInflationFactor", "1.5".toList),
  ("config.filter.predict.birthTrackPE", "0.1".toList),
  ("config.filter.update.measurementNoiseInflationFactor", "10.0".toList),
  ("config.filter.update.KalmanFilter.innovationThreshold.range", "1.0".toList),
  ("config.filter.update.KalmanFilter.innovationThreshold.bearing", "0.2".toList),
  ("config.filter.update.GaussianCreateInnovMDThreshold", "3.0".toList),
  ("config.filter.weighting.nEvalPt", "15".toList),
  ("config.filter.weighting.minPE", "0.75".toList),
  ("config.filter.weighting.threshold", "1e-4".toList),
  ("config.filter.weighting.useClusterProcess", "0".toList),
  ("config.filter.resampling.effNParticle", "100.0".toList),
  ("config.filter.resampling.minTimesteps", "2".toList),
  ("config.filter.merge.threshold", "0.5".toList),
  ("config.filter.merge.covInflationFactor", "1.5".toList),
  ("config.filter.prune.trackthreshold", "0.05".toList),
  ("config.filter.prune.gaussianthreshold", "0.05".toList)],
  none⟩

/-- cfg/rblmbslam2dSim.xml: the elements without children, in the order of the file; comments are left out. -/
def cfg_rblmbslam2dSim : Tree := ⟨[
  ("config.logging.logToFile", "1".toList),
  ("config.logging.logDirPrefix", "data/rblmb2dslam/".toList),
  ("config.timesteps", "300".toList),
  ("config.sec_per_timestep", "0.1".toList),
  ("config.trajectory.nSegments", "20".toList),
  ("config.trajectory.max_dx_per_sec", "0.30".toList),
  ("config.trajectory.max_dy_per_sec", "0.00".toList),
  ("config.trajectory.max_dz_per_sec", "0.50".toList),
  ("config.trajectory.min_dx_per_sec", "0.10".toList),
  ("config.trajectory.vardx", "0.00200".toList),
  ("config.trajectory.vardy", "0.00200".toList),
  ("config.trajectory.vardz", "0.00200".toList),
  ("config.landmarks.nLandmarks", "50".toList),
  ("config.landmarks.varlmx", "0.0001".toList),
  ("config.landmarks.varlmy", "0.0001".toList),
  ("config.measurements.rangeLimitMax", "2.5".toList),
  ("config.measurements.rangeLimitMin", "0.5".toList),
  ("config.measurements.rangeLimitBuffer", "0.05".toList),
  ("config.measurements.probDetection", "0.50".toList),
  ("config.measurements.clutterIntensity", "0.5".toList),
  ("config.measurements.varzr", "0.0005".toList),
  ("config.measurements.varzb", "0.00005".toList),
  ("config.filter.nParticles", "200".toList),
  ("config.filter.predict.processNoiseInflationFactor", "1.5".toList),
  ("config.filter.predict.birthTrackMaxPE", "0.1".toList),
  ("config.filter.predict.birthTrackMinPE", "5e-2".toList),
  ("config.filter.predict.expectedBirths", "100.0".toList),
  ("config.filter.update.measurementNoiseInflationFactor", "10.0".toList),
  ("config.filter.update.KalmanFilter.innovationThreshold.range", "1.0".toList),
  ("config.filter.update.KalmanFilter.innovationThreshold.bearing", "0.2".toList),
  ("config.filter.update.GaussianCreateInnovMDThreshold", "3.0".toList),
  ("config.filter.update.MLthreshold", "1e-4".toList),
  ("config.filter.resampling.effNParticle", "100.0".toList),
  ("config.filter.resampling.minTimesteps", "2".toList),
  ("config.filter.merge.threshold", "0.5".toList),
  ("config.filter.merge.covInflationFactor", "1.5".toList),
  ("config.filter.prune.trackthreshold", "5e-2".toList),
  ("config.filter.prune.gaussianthreshold", "0.05".toList)],
  none⟩

/-- cfg/rbphdslam6dSim.xml: the elements without children, in the order of the file; comments are left out. -/
def cfg_rbphdslam6dSim : Tree := ⟨[
  ("config.use_gui", "1".toList),
  ("config.logging.logResultsToFile", "1".toList),
  ("config.logging.logTimingToFile", "1".toList),
  ("config.logging.logDirPrefix", "data/rbphdslam6d".toList),
  ("config.timesteps", "3000".toList),
  ("config.sec_per_timestep", "0.1".toList),
  ("config.trajectory.nSegments", "5".toList),
  ("config.trajectory.max_dx_per_sec", "0.30".toList),
  ("config.trajectory.max_dy_per_sec", "0.10".toList),
  ("config.trajectory.max_dz_per_sec", "0.10".toList),
  ("config.trajectory.min_dx_per_sec", "0.10".toList),
  ("config.trajectory.max_dqx_per_sec", "0.10".toList),
  ("config.trajectory.max_dqy_per_sec", "0.05".toList),
  ("config.trajectory.max_dqz_per_sec", "0.050".toList),
  ("config.trajectory.max_dqw_per_sec", "0.050".toList),
  ("config.trajectory.vardx", "0.00200".toList),
  ("config.trajectory.vardy", "0.00200".toList),
  ("config.trajectory.vardz", "0.00200".toList),
  ("config.trajectory.vardqx", "0.00200".toList),
  ("config.trajectory.vardqy", "0.00200".toList),
  ("config.trajectory.vardqz", "0.00200".toList),
  ("config.trajectory.vardqw", "0.00200".toList),
  ("config.landmarks.nLandmarks", "100".toList),
  ("config.landmarks.varlmx", "0.0002".toList),
  ("config.landmarks.varlmy", "0.0002".toList),
  ("config.landmarks.varlmz", "0.0002".toList),
  ("config.measurements.rangeLimitMax", "10.0".toList),
  ("config.measurements.rangeLimitMin", "0.5".toList),
  ("config.measurements.rangeLimitBuffer", "0.0".toList),
  ("config.measurements.probDetection", "0.950".toList),
  ("config.measurements.clutterIntensity", "5e-10".toList),
  ("config.measurements.varzx", "0.0005".toList),
  ("config.measurements.varzy", "0.0005".toList),
  ("config.measurements.varzz", "0.0005".toList),
  ("config.filter.nParticles", "1000".toList),
  ("config.filter.predict.processNoiseInflationFactor", "1.0".toList),
  ("config.filter.predict.birthGaussianWeight", "0.01".toList),
  ("config.filter.update.measurementNoiseInflationFactor", "10.0".toList),
  ("config.filter.update.KalmanFilter.innovationThreshold.range", "1.0".toList),
  ("config.filter.update.KalmanFilter.innovationThreshold.bearing", "0.2".toList),
  ("config.filter.update.GaussianCreateInnovMDThreshold", "3.0".toList),
  ("config.filter.weighting.nEvalPt", "15".toList),
  ("config.filter.weighting.minWeight", "0.75".toList),
  ("config.filter.weighting.threshold", "3.0".toList),
  ("config.filter.weighting.useClusterProcess", "0".toList),
  ("config.filter.resampling.effNParticle", "500.0".toList),
  ("config.filter.resampling.minTimesteps", "2".toList),
  ("config.filter.merge.threshold", "1.0".toList),
  ("config.filter.merge.covInflationFactor", "1.5".toList),
  ("config.filter.prune.threshold", "0.005".toList)],
  none⟩

/-- cfg/rfsceresslam1dSim.xml: the elements without children, in the order of the file; comments are left out. -/
def cfg_rfsceresslam1dSim : Tree := ⟨[
  ("config.logging.logToFile", "1".toList),
  ("config.logging.logDirPrefix", "data/rfsceres1dslam/".toList),
  ("config.timesteps", "30".toList),
  ("config.sec_per_timestep", "1.0".toList),
  ("config.trajectory.nSegments", "5".toList),
  ("config.trajectory.max_dx_per_sec", "0.30".toList),
  ("config.trajectory.min_dx_per_sec", "-0.30".toList),
  ("config.trajectory.vardx", "0.010".toList),
  ("config.landmarks.nLandmarks", "5".toList),
  ("config.measurements.rangeLimitMax", "6.0".toList),
  ("config.measurements.rangeLimitMin", "0.5".toList),
  ("config.measurements.rangeLimitBuffer", "0.05".toList),
  ("config.measurements.probDetection", "0.9".toList),
  ("config.measurements.clutterIntensity", "0.01".toList),
  ("config.measurements.varzr", "0.0001".toList),
  ("config.optimizer.iterations", "100".toList),
  ("config.optimizer.ospaC", "10".toList),
  ("config.optimizer.useDataAssociation", "1".toList),
  ("config.optimizer.initMapProb", "0.05".toList),
  ("config.optimizer.predict.processNoiseInflationFactor", "10.0".toList),
  ("config.optimizer.MLThreshold", "-50000".toList),
  ("config.optimizer.update.measurementNoiseInflationFactor", "1.".toList)],
  none⟩

/-- cfg/rfsceresslam2dSim.xml: the elements without children, in the order of the file; comments are left out. -/
def cfg_rfsceresslam2dSim : Tree := ⟨[
  ("config.logging.logToFile", "1".toList),
  ("config.logging.logDirPrefix", "data/rfsceres2dslam/".toList),
  ("config.timesteps", "30".toList),
  ("config.sec_per_timestep", "1.0".toList),
  ("config.trajectory.nSegments", "5".toList),
  ("config.trajectory.max_dx_per_sec", "0.30".toList),
  ("config.trajectory.max_dy_per_sec", "0.00".toList),
  ("config.trajectory.max_dz_per_sec", "0.50".toList),
  ("config.trajectory.min_dx_per_sec", "0.10".toList),
  ("config.trajectory.vardx", "0.000200".toList),
  ("config.trajectory.vardy", "0.000200".toList),
  ("config.trajectory.vardz", "0.000200".toList),
  ("config.landmarks.nLandmarks", "5".toList),
  ("config.measurements.rangeLimitMax", "2.5".toList),
  ("config.measurements.rangeLimitMin", "0.5".toList),
  ("config.measurements.rangeLimitBuffer", "0.05".toList),
  ("config.measurements.probDetection", "0.90".toList),
  ("config.measurements.clutterIntensity", "0.001".toList),
  ("config.measurements.varzr", "0.0001".toList),
  ("config.measurements.varzb", "0.0001".toList),
  ("config.optimizer.iterations", "100".toList),
  ("config.optimizer.ospaC", "10".toList),
  ("config.optimizer.useDataAssociation", "1".toList),
  ("config.optimizer.initMapProb", "0.05".toList),
  ("config.optimizer.predict.processNoiseInflationFactor", "10.0".toList),
  ("config.optimizer.MLThreshold", "-50000".toList),
  ("config.optimizer.update.measurementNoiseInflationFactor", "1.".toList)],
  none⟩

/-- cfg/rfspsoslam1dSim.xml: the elements without children, in the order of the file; comments are left out. -/
def cfg_rfspsoslam1dSim : Tree := ⟨[
  ("config.logging.logToFile", "1".toList),
  ("config.logging.logDirPrefix", "data/rfspso1dslam/".toList),
  ("config.timesteps", "30".toList),
  ("config.sec_per_timestep", "1.0".toList),
  ("config.trajectory.nSegments", "5".toList),
  ("config.trajectory.max_dx_per_sec", "0.30".toList),
  ("config.trajectory.min_dx_per_sec", "-0.30".toList),
  ("config.trajectory.vardx", "0.010".toList),
  ("config.landmarks.nLandmarks", "5".toList),
  ("config.measurements.rangeLimitMax", "6.0".toList),
  ("config.measurements.rangeLimitMin", "0.5".toList),
  ("config.measurements.rangeLimitBuffer", "0.05".toList),
  ("config.measurements.probDetection", "0.9".toList),
  ("config.measurements.clutterIntensity", "0.01".toList),
  ("config.measurements.varzr", "0.0001".toList),
  ("config.optimizer.optimizeIter", "50".toList),
  ("config.optimizer.iterations", "10000".toList),
  ("config.optimizer.nParticles", "400".toList),
  ("config.optimizer.ospaC", "1.0".toList),
  ("config.optimizer.initMapProb", "0.10".toList),
  ("config.optimizer.w", "0.721".toList),
  ("config.optimizer.phi_global", "1.193".toList),
  ("config.optimizer.card_phi_global", "0.05".toList),
  ("config.optimizer.phi_particle", "1.193".toList),
  ("config.optimizer.card_phi_particle", "0.05".toList),
  ("config.optimizer.K", "3".toList),
  ("config.optimizer.global", "0 ".toList),
  ("config.optimizer.predict.processNoiseInflationFactor", "1.0".toList),
  ("config.optimizer.MLThreshold", "1e-4".toList),
  ("config.optimizer.update.measurementNoiseInflationFactor", "1.0".toList)],
  none⟩

/-- cfg/rfspsoslam2dSim.xml: the elements without children, in the order of the file; comments are left out. -/
def cfg_rfspsoslam2dSim : Tree := ⟨[
  ("config.logging.logToFile", "1".toList),
  ("config.logging.logDirPrefix", "data/rfspso2dslam/".toList),
  ("config.timesteps", "30".toList),
  ("config.sec_per_timestep", "1.0".toList),
  ("config.trajectory.nSegments", "5".toList),
  ("config.trajectory.max_dx_per_sec", "0.30".toList),
  ("config.trajectory.max_dy_per_sec", "0.00".toList),
  ("config.trajectory.max_dz_per_sec", "0.50".toList),
  ("config.trajectory.min_dx_per_sec", "0.10".toList),
  ("config.trajectory.vardx", "0.000200".toList),
  ("config.trajectory.vardy", "0.000200".toList),
  ("config.trajectory.vardz", "0.000200".toList),
  ("config.landmarks.nLandmarks", "5".toList),
  ("config.measurements.rangeLimitMax", "2.5".toList),
  ("config.measurements.rangeLimitMin", "0.5".toList),
  ("config.measurements.rangeLimitBuffer", "0.05".toList),
  ("config.measurements.probDetection", "0.90".toList),
  ("config.measurements.clutterIntensity", "0.001".toList),
  ("config.measurements.varzr", "0.0001".toList),
  ("config.measurements.varzb", "0.0001".toList),
  ("config.optimizer.optimizeIter", "100".toList),
  ("config.optimizer.iterations", "100000".toList),
  ("config.optimizer.nParticles", "200".toList),
  ("config.optimizer.ospaC", "10.0".toList),
  ("config.optimizer.initMapProb", "0.100".toList),
  ("config.optimizer.w", "0.721".toList),
  ("config.optimizer.phi_global", "1.193".toList),
  ("config.optimizer.card_phi_global", "0.01".toList),
  ("config.optimizer.phi_particle", "1.193".toList),
  ("config.optimizer.card_phi_particle", "0.01".toList),
  ("config.optimizer.K", "3".toList),
  ("config.optimizer.global", "0 ".toList),
  ("config.optimizer.predict.processNoiseInflationFactor", "1.0".toList),
  ("config.optimizer.MLThreshold", "1e-4".toList),
  ("config.optimizer.update.measurementNoiseInflationFactor", "1.0".toList)],
  none⟩

/-- The default of the option `--cfg` of each program; `none`: there is no such file in the repository. src/rbphdslam2dSim.cpp 49, src/rblmbslamCityTrees10000.cpp 49, src/fastslam2dSim.cpp 806,
src/fastslam_VictoriaPark.cpp 836, src/rbphdslam_VictoriaPark.cpp 848, src/rbcbmemberslam2dSim.cpp 768, src/rblmbslam2dSim.cpp 765, src/rbphdslam2dSim_amplitude.cpp 736,
src/rbphdslam6dSim.cpp 985, src/rfsceresslam1dSim.cpp 786, src/rfsceresslam2dSim.cpp 912, src/rfspsoslam1dSim.cpp 698, src/rfspsoorbslam1dSim.cpp 714, src/rfspsoslam2dSim.cpp 718. -/
def shipped : Prog → Option Tree
  | .phd2d => some cfg_rbphdslam2dSim
  | .lmbCity => none
  | .fast2d => some cfg_fastslam2dSim
  | .fastVP => some cfg_fastslam_VictoriaPark
  | .phdVP => some cfg_rbphdslam_VictoriaPark
  | .cbm2d => some cfg_rbcbmemberslam2dSim
  | .lmb2d => some cfg_rblmbslam2dSim
  | .phdAmp => some cfg_rbphdslam2dSim
  | .phd6d => some cfg_rbphdslam6dSim
  | .ceres1d => some cfg_rfsceresslam1dSim
  | .ceres2d => some cfg_rfsceresslam2dSim
  | .pso1d => some cfg_rfspsoslam1dSim
  | .psoOrb => some cfg_rfspsoslam1dSim
  | .pso2d => some cfg_rfspsoslam2dSim

end RFS.Config
